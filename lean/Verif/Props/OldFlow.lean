import Verif.Proofs.OldRun
import Verif.Props.LegacyDemo
/-! C76: an untouched stream of the older format is validated OK.  C77: what is said of one that is not untouched. -/
namespace SV
open Spec

theorem units_all (c : Codec) (gs : List OldGop) : ((gs.map fun g => (g, true)).flatMap fun g => g.1.units c) = gs.flatMap fun g => g.units c := by
  rw [List.flatMap_map]

/-- **C77.** A stream of the older format is received with NAL units changed, added or removed, or with changed SEIs. Which GOPs are then said to be OK depends
only on which SEIs match what was received: the report for a GOP is OK if its SEI and the SEI before match. All reports tell how many NAL units are expected and received,
which of them are not OK and how many are missing; later GOPs are again OK, but the overall verdict is not.

The conditions are those of C76, but the SEIs of a GOP may not match its NAL units, except for the first SEI. SEIs that do not match have a signature of a hash of the whole
GOP. The number of SEIs and that of GOPs is unchanged. -/
theorem C77_old_damage {env : AuthEnv} {key : Bytes} {c : Codec} {max : Nat} (len : ∀ b, (env.H env.oid b).length = 32) (rounds : 2 ≤ env.rounds) (accepted : env.crypto.keyOk key = true)
    (known : env.crypto.oidHashSize env.oid = some 32) {lead : List Bytes} {g : OldGop} {gs : List (OldGop × Bool)} (hlead : ∀ d ∈ lead, Ordinary c d ∧ picture c d = none)
    (first : 2 ∈ g.sei.tags) (received : OldReceived env key c max [] none ((g, true) :: gs)) :
    ∃ s os ps, Session.run env (newSession env c) ((lead ++ ((g, true) :: gs).flatMap fun g => g.1.units c).map .nalu) = .ok (s, os ++ ps) ∧
      os.length = lead.length ∧ (∀ o ∈ os, o.rc = none ∧ ∀ r, o.report = some r → r.latest.auth = .notSigned ∧ r.acc.auth = .notSigned) ∧
      AsClaimed (oldClaims c 0 false true ((g, true) :: gs)) ps := by
  obtain ⟨s, os, ps, h1, h2, h3, h4, -⟩ := Old.run_stream (Γ := ⟨env, c, env.oid, 32, key, max, true, 0, true, none⟩) ⟨Nat.le_of_ble_eq_true rfl, Nat.le_of_ble_eq_true rfl, len, rounds, .inl rfl⟩
    rfl rfl ⟨accepted, known, fun _ => rfl⟩ rfl rfl hlead first received
  exact ⟨s, os, ps, h1, h2, h3, h4⟩

/-- **C76.** A stream that was signed with the older format is received as it was sent. Then each call returns no error, the first
NAL unit of each GOP completes the GOP before, for which it is reported that all NAL units and the SEI are OK, and nothing else is reported
after the first SEI.

The hash of the validator has 32 bytes and is that of the stream; the first SEI has the public key. NAL units before the first SEI are
not of pictures: those would not have been signed. -/
theorem C76_old_ok {env : AuthEnv} {key : Bytes} {c : Codec} {max : Nat} (len : ∀ b, (env.H env.oid b).length = 32) (rounds : 2 ≤ env.rounds) (accepted : env.crypto.keyOk key = true)
    (known : env.crypto.oidHashSize env.oid = some 32) {lead : List Bytes} {g : OldGop} {gs : List OldGop} (hlead : ∀ d ∈ lead, Ordinary c d ∧ picture c d = none)
    (first : 2 ∈ g.sei.tags) (signed : OldSigned env key c max [] none (g :: gs)) :
    ∃ s os ps, Session.run env (newSession env c) ((lead ++ (g :: gs).flatMap fun g => g.units c).map .nalu) = .ok (s, os ++ ps) ∧
      os.length = lead.length ∧ (∀ o ∈ os, o.rc = none ∧ ∀ r, o.report = some r → r.latest.auth = .notSigned ∧ r.acc.auth = .notSigned) ∧
      AsReported (oldReports c 0 (g :: gs)) ps := by
  obtain ⟨s, os, ps, h1, h2, h3, h4⟩ := C77_old_damage len rounds accepted known hlead first (Old.oldReceived_of signed)
  rw [show (g, true) :: gs.map (fun g => (g, true)) = (g :: gs).map fun g => (g, true) from rfl] at h1 h4
  rw [units_all] at h1
  rw [show 0 = ([] : List Bytes).length from rfl, Old.oldClaims_of signed] at h4
  exact ⟨s, os, ps, h1, h2, h3, Old.asReported_of h4⟩

/-- **C62, partial.** After a stream of the older format as in C76, any number of further streams of the older format with the same key are validated with a reset before
each, and all reports are those of a new session; the public key is not needed again.

Missing: streams of the newer format, for which this is false (`C62_reset_false`), and resets within a stream. -/
theorem C62_streams_partial {env : AuthEnv} {key : Bytes} {c : Codec} {max : Nat} (len : ∀ b, (env.H env.oid b).length = 32) (rounds : 2 ≤ env.rounds) (accepted : env.crypto.keyOk key = true)
    (known : env.crypto.oidHashSize env.oid = some 32) {lead : List Bytes} {g : OldGop} {gs : List OldGop} (hlead : ∀ d ∈ lead, Ordinary c d ∧ picture c d = none)
    (first : 2 ∈ g.sei.tags) (signed : OldSigned env key c max [] none (g :: gs)) {more : List (List Bytes × List OldGop)}
    (hmore : ∀ p ∈ more, (∀ d ∈ p.1, Ordinary c d ∧ picture c d = none) ∧ OldSigned env key c max [] none p.2) :
    ∃ s os ps qs, Session.run env (newSession env c) ((lead ++ (g :: gs).flatMap fun g => g.units c).map .nalu ++
        more.flatMap fun p => AuthCall.reset :: (p.1 ++ p.2.flatMap fun g => g.units c).map .nalu) = .ok (s, os ++ ps ++ qs) ∧
      os.length = lead.length ∧ (∀ o ∈ os, o.rc = none ∧ ∀ r, o.report = some r → r.latest.auth = .notSigned ∧ r.acc.auth = .notSigned) ∧
      AsReported (oldReports c 0 (g :: gs)) ps ∧ AsReported (more.flatMap fun p => none :: ((p.1.map fun _ => none) ++ oldReports c 0 p.2)) qs := by
  have hok : (⟨env, c, env.oid, 32, key, max, true, 0, true, none⟩ : Validator.Scene).Ok := ⟨Nat.le_of_ble_eq_true rfl, Nat.le_of_ble_eq_true rfl, len, rounds, .inl rfl⟩
  obtain ⟨s, os, ps, h1, h2, h3, h4, h5⟩ := Old.run_stream hok rfl rfl ⟨accepted, known, fun _ => rfl⟩ rfl rfl hlead first (Old.oldReceived_of signed)
  obtain ⟨s', qs, e1, e2⟩ := Old.run_more (more := more.map fun p => (p.1, p.2.map fun g => (g, true))) hok rfl ⟨accepted, known, fun _ => rfl⟩ rfl rfl h5 (by
    intro p hp
    obtain ⟨q, hq, rfl⟩ := List.mem_map.1 hp
    obtain ⟨a, b⟩ := hmore q hq
    refine ⟨a, Old.oldReceived_of b, ?_⟩
    intro x hx
    cases hg : q.2 with
    | nil => rw [hg] at hx; cases hx
    | cons y l => rw [hg] at hx; cases hx; rfl)
  rw [show (g, true) :: gs.map (fun g => (g, true)) = (g :: gs).map fun g => (g, true) from rfl] at h1 h4
  rw [show (⟨env, c, env.oid, 32, key, max, true, 0, true, none⟩ : Validator.Scene).codec = c from rfl] at h1 h4 e1 e2
  rw [units_all] at h1
  rw [show 0 = ([] : List Bytes).length from rfl, Old.oldClaims_of signed] at h4
  rw [List.flatMap_map] at e1 e2
  simp only [units_all] at e1
  refine ⟨s', os, ps, qs, Old.run_append h1 e1, h2, h3, Old.asReported_of h4, Old.asReported_of ?_⟩
  rw [List.map_flatMap]
  have hq : ∀ p ∈ more, (none :: ((p.1.map fun _ => none) ++ oldClaims c 0 false true (p.2.map fun g => (g, true))) : List (Option OldClaim)) =
      (none :: ((p.1.map fun _ => none) ++ oldReports c 0 p.2)).map Old.asGood := by
    intro p hp
    have := Old.oldClaims_of (hmore p hp).2
    rw [List.length_nil] at this
    rw [this]
    simp [Old.asGood]
  have hf : ∀ l : List (List Bytes × List OldGop), (∀ p ∈ l, p ∈ more) →
      l.flatMap (fun p => (none :: ((p.1.map fun _ => none) ++ oldClaims c 0 false true (p.2.map fun g => (g, true))) : List (Option OldClaim))) =
      l.flatMap fun p => (none :: ((p.1.map fun _ => none) ++ oldReports c 0 p.2)).map Old.asGood := by
    intro l
    induction l with
    | nil => intro _; rfl
    | cons p l ih =>
      intro hl
      rw [List.flatMap_cons, List.flatMap_cons, hq p (hl p List.mem_cons_self), ih fun x hx => hl x (List.mem_cons_of_mem _ hx)]
  rw [← hf more fun _ h => h]
  exact e2

/-! ### A stream that meets the conditions -/

def oldOrdinaryB (c : Codec) (d : Bytes) : Bool :=
  decide (d ≠ []) && (match parseNalu d c true true with | .ok n => !n.gopSei | _ => false) &&
  decide (Protected c ((body d).getD 0 0) ((body d).getD 1 0) → LegalHeader c ((body d).getD 0 0) ((body d).getD 1 0))

theorem oldOrdinary_of_check {c : Codec} {d : Bytes} (h : oldOrdinaryB c d = true) : Ordinary c d := by
  unfold oldOrdinaryB at h
  simp only [Bool.and_eq_true, decide_eq_true_eq] at h
  obtain ⟨⟨h1, h2⟩, h3⟩ := h
  refine ⟨h1, ?_, h3⟩
  split at h2
  · next n hn => exact ⟨n, hn, by simpa using h2⟩
  · cases h2

def noNulB (s : Option Bytes) : Bool := (s.getD []).all fun b => b != 0

theorem noNul_of_check {s : Option Bytes} (h : noNulB s = true) : NoNul s := by
  intro b hb
  simpa using List.all_eq_true.1 h b hb

def fitsB (e : EncState) : Bool :=
  decide (e.hashSize ≤ 64) && decide (e.linkedHash.length = e.hashSize) && decide (e.gopHash.length = e.hashSize) &&
  noNulB e.product.hardwareId && noNulB e.product.firmwareVersion && noNulB e.product.serialNumber && noNulB e.product.manufacturer && noNulB e.product.address &&
  decide (e.arbitrary.length ≤ 65534) && (match e.publicKey with | none => true | some k => decide (1 ≤ k.length) && decide (k.length ≤ 65534)) &&
  (match e.hashList with | none => true | some l => decide (l.length ≤ 19200)) && decide (e.oid.length ≤ 253) && decide (e.signature.length ≤ e.maxSignature) &&
  decide (e.maxSignature ≤ 65530) && decide (e.hashType < 2) && decide (e.axis.length ≤ 65535)

theorem fits_of_check {e : EncState} (h : fitsB e = true) : Fits e := by
  unfold fitsB at h
  simp only [Bool.and_eq_true, decide_eq_true_eq] at h
  obtain ⟨⟨⟨⟨⟨⟨⟨⟨⟨⟨⟨⟨⟨⟨⟨h1, h2⟩, h3⟩, h4⟩, h5⟩, h6⟩, h7⟩, h8⟩, h9⟩, h10⟩, h11⟩, h12⟩, h13⟩, h14⟩, h15⟩, h16⟩ := h
  refine ⟨h1, h2, h3, noNul_of_check h4, noNul_of_check h5, noNul_of_check h6, noNul_of_check h7, noNul_of_check h8, h9, ?_, ?_, h12, h13, h14, h15, h16⟩
  · intro k hk
    rw [hk] at h10
    simpa using h10
  · intro l hl
    rw [hl] at h11
    simpa using h11

def properB (s : OldSei) (env : AuthEnv) (key : Bytes) (max : Nat) : Bool :=
  fitsB s.e && s.tags.all (fun t => decide (t ∈ ([1, 2, 3, 4, 6, 7] : List UInt8))) && decide (1 ∈ s.tags) && s.tags.all (fun t => decide (s.value t ≠ [])) &&
  decide (2 ∈ s.tags → s.e.publicKey = some key) && decide (7 ∈ s.tags → s.e.oid = env.oid) && decide (s.e.maxSignature = max) && decide (s.e.signature ≠ []) &&
  decide ((tlvs s.signed).length < 2 ^ 32)

theorem proper_of_check {s : OldSei} {env : AuthEnv} {key : Bytes} {max : Nat} (h : properB s env key max = true) : s.Proper env key max := by
  unfold properB at h
  simp only [Bool.and_eq_true, decide_eq_true_eq, List.all_eq_true] at h
  obtain ⟨⟨⟨⟨⟨⟨⟨⟨h1, h2⟩, h3⟩, h4⟩, h5⟩, h6⟩, h7⟩, h8⟩, h9⟩ := h
  exact ⟨fits_of_check h1, h2, h3, h4, h5, h6, h7, h8, h9⟩

def gopB (g : OldGop) (c : Codec) : Bool :=
  g.between.all (fun d => oldOrdinaryB c d && (picture c d).isNone) && oldOrdinaryB c g.first && ((picture c g.first).map Piece.first == some true) &&
  g.rest.all (fun d => oldOrdinaryB c d && decide ((picture c d).map Piece.first ≠ some true))

theorem shape_of_check {g : OldGop} {c : Codec} (h : gopB g c = true) : g.Shape c := by
  unfold gopB at h
  simp only [Bool.and_eq_true, decide_eq_true_eq, List.all_eq_true, beq_iff_eq, Option.isNone_iff_eq_none] at h
  obtain ⟨⟨⟨h1, h2⟩, h3⟩, h4⟩ := h
  refine ⟨fun d hd => ⟨oldOrdinary_of_check (h1 d hd).1, (h1 d hd).2⟩, ⟨oldOrdinary_of_check h2, ?_⟩, fun d hd => ⟨oldOrdinary_of_check (h4 d hd).1, fun p hp => ?_⟩⟩
  · cases hp : picture c g.first with
    | none => rw [hp] at h3; cases h3
    | some p => rw [hp] at h3; exact ⟨p, rfl, by simpa using h3⟩
  · have := (h4 d hd).2
    rw [hp] at this
    cases hf : p.first with
    | false => rfl
    | true => simp [hf] at this

def signsB (s : OldSei) (c : Codec) (H : Bytes → Bytes) (verify : Bytes → Bytes → Int) (hs : List Bytes) : Bool :=
  decide (s.e.numNalus.toNat = hs.length) &&
  (decide (s.e.hashType = 1) && decide (4 ∈ s.tags) && decide (s.e.hashList = some hs.flatten) && decide (verify s.e.signature (H (s.doc c)) = 1) ||
    decide (s.e.hashType = 0) && decide (verify s.e.signature ((hs ++ [H (s.doc c)]).foldl (fun g h => H (g ++ h)) (H [1])) = 1))

theorem signs_of_check {s : OldSei} {c : Codec} {H : Bytes → Bytes} {verify : Bytes → Bytes → Int} {hs : List Bytes} (h : signsB s c H verify hs = true) : s.Signs c H verify hs := by
  unfold signsB at h
  simp only [Bool.and_eq_true, Bool.or_eq_true, decide_eq_true_eq] at h
  refine ⟨h.1, ?_⟩
  rcases h.2 with ⟨⟨⟨a, b⟩, c⟩, d⟩ | h
  · exact .inl ⟨a, b, c, d⟩
  · exact .inr h

def oldSignedB (env : AuthEnv) (key : Bytes) (c : Codec) (max : Nat) : List Bytes → Option UInt32 → List OldGop → Bool
  | _, _, [] => true
  | prev, n, g :: gs =>
    gopB g c && properB g.sei env key max && signsB g.sei c (env.H env.oid) (env.verify key) (oldHashes (env.H env.oid) (prev ++ (g.pictures c).take 1)) &&
    (match n with | none => true | some k => decide (g.sei.e.gopCounter = k + 1)) && oldSignedB env key c max (g.pictures c) (some g.sei.e.gopCounter) gs

theorem oldSigned_of_check {env : AuthEnv} {key : Bytes} {c : Codec} {max : Nat} {gs : List OldGop} : ∀ {prev : List Bytes} {n : Option UInt32}, oldSignedB env key c max prev n gs = true →
    OldSigned env key c max prev n gs := by
  induction gs with
  | nil => intro prev n _; trivial
  | cons g gs ih =>
    intro prev n h
    unfold oldSignedB at h
    simp only [Bool.and_eq_true] at h
    obtain ⟨⟨⟨⟨h1, h2⟩, h3⟩, h4⟩, h5⟩ := h
    refine ⟨shape_of_check h1, proper_of_check h2, signs_of_check h3, ?_, ih h5⟩
    intro k hk
    rw [hk] at h4
    simpa using h4

/-- A SEI for the hashes `hs`. -/
def oldDemoSei (list : Bool) (tags : List UInt8) (timed : Bool) (counter : UInt32) (hs : List Bytes) : OldSei :=
  let s : OldSei := ⟨tags, ⟨counter, UInt16.ofNat hs.length, (1, 1, 0), if timed then some 77 else none, 0, [], [], {}, [], some [9, 9, 9], true, if list then some hs.flatten else none, true, 0,
    if list then 1 else 0, [], 40, [0x60, 0x86], true, []⟩, timed⟩
  let d := polyHash (s.doc .h264)
  { s with e := { s.e with signature := toySig (if list then d else (hs ++ [d]).foldl (fun g h => polyHash (g ++ h)) (polyHash [1])) } }

/-- Three GOPs, a SEI with the list of hashes, one with a GOP hash, again one with a list. -/
def oldDemo : List OldGop :=
  let i1 := toyNalu 'I' 1; let p1 := toyNalu 'P' 2; let p2 := toyNalu 'P' 3; let i2 := toyNalu 'I' 4; let p3 := toyNalu 'P' 5; let i3 := toyNalu 'I' 6
  let hs := fun l : List Bytes => oldHashes polyHash (l.map fun d => d.drop 4)
  [⟨oldDemoSei true [1, 2, 3, 4] false 7 (hs [i1]), [toyNalu 'A' 0], i1, [p1, toyNalu 'A' 0, p2]⟩,
   ⟨oldDemoSei false [1, 7] true 8 (hs [i1, p1, p2, i2]), [], i2, [p3]⟩,
   ⟨oldDemoSei true [1, 4] false 9 (hs [i2, p3, i3]), [], i3, []⟩]

example : oldReports .h264 0 oldDemo = [none, none, some 1, none, none, none, none, some 4, none, none, some 3] := by decide +kernel

theorem oldDemo_signed : OldSigned polyEnv [9, 9, 9] .h264 40 [] none (oldDemo.head (by decide) :: oldDemo.tail) := oldSigned_of_check (by decide +kernel)

theorem oldDemo_lead : ∀ d ∈ [toyNalu 'A' 0, toyNalu 'A' 0], Ordinary .h264 d ∧ picture .h264 d = none := by
  intro d hd
  have : ([toyNalu 'A' 0, toyNalu 'A' 0].all fun d => oldOrdinaryB .h264 d && (picture .h264 d).isNone) = true := by decide +kernel
  have := List.all_eq_true.1 this d hd
  rw [Bool.and_eq_true, Option.isNone_iff_eq_none] at this
  exact ⟨oldOrdinary_of_check this.1, this.2⟩

example : ∃ s os ps, Session.run polyEnv (newSession polyEnv .h264) (([toyNalu 'A' 0, toyNalu 'A' 0] ++ oldDemo.flatMap fun g => g.units .h264).map .nalu) = .ok (s, os ++ ps) ∧
    os.length = 2 ∧ AsReported (oldReports .h264 0 oldDemo) ps := by
  obtain ⟨s, os, ps, h1, h2, -, h4⟩ := C76_old_ok (env := polyEnv) (key := [9, 9, 9]) (c := .h264) (max := 40) (fun b => by simp [polyEnv, polyHash]) (by decide) (by decide) (by decide)
    (lead := [toyNalu 'A' 0, toyNalu 'A' 0]) (g := oldDemo.head (by decide)) (gs := oldDemo.tail)
    oldDemo_lead (by decide +kernel) oldDemo_signed
  rw [show oldDemo.head _ :: oldDemo.tail = oldDemo from rfl] at h1 h4
  exact ⟨s, os, ps, h1, h2, h4⟩

/-- The stream three times, with a reset between them. -/
example : ∃ s os ps qs, Session.run polyEnv (newSession polyEnv .h264) (([toyNalu 'A' 0, toyNalu 'A' 0] ++ oldDemo.flatMap fun g => g.units .h264).map .nalu ++
      [([], oldDemo), ([toyNalu 'A' 0], oldDemo)].flatMap fun p => AuthCall.reset :: (p.1 ++ p.2.flatMap fun g => g.units .h264).map .nalu) = .ok (s, os ++ ps ++ qs) ∧
    os.length = 2 ∧ AsReported (oldReports .h264 0 oldDemo) ps ∧ AsReported (none :: oldReports .h264 0 oldDemo ++ none :: none :: oldReports .h264 0 oldDemo) qs := by
  obtain ⟨s, os, ps, qs, h1, h2, -, h4, h5⟩ := C62_streams_partial (env := polyEnv) (key := [9, 9, 9]) (c := .h264) (max := 40) (fun b => by simp [polyEnv, polyHash]) (by decide) (by decide) (by decide)
    (lead := [toyNalu 'A' 0, toyNalu 'A' 0]) (g := oldDemo.head (by decide)) (gs := oldDemo.tail) oldDemo_lead (by decide +kernel) oldDemo_signed
    (more := [([], oldDemo), ([toyNalu 'A' 0], oldDemo)]) (by
      intro p hp
      rcases List.mem_cons.1 hp with rfl | hp
      · exact ⟨(by intro d hd; cases hd), oldDemo_signed⟩
      · rw [List.mem_singleton.1 hp]
        exact ⟨fun d hd => oldDemo_lead d (by rw [List.mem_singleton.1 hd]; exact List.mem_cons_self), oldDemo_signed⟩)
  rw [show oldDemo.head _ :: oldDemo.tail = oldDemo from rfl] at h1 h4
  refine ⟨s, os, ps, qs, h1, h2, h4, ?_⟩
  simpa using h5

end SV
