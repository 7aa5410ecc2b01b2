import Verif.Props.SignHist
import Verif.Proofs.SignCounter
/-! Settings during a signing session: C40 (signing part). -/
namespace SV
open Spec

/-- Settings that must not change once signing has started. -/
def Frozen : Setting → Prop
  | .hashAlgo _ => True
  | .usingGolden _ => True
  | _ => False

/-- Settings with a value out of range. -/
def OutOfRange : Setting → Prop
  | .recurrence r => r = 0
  | .level l => l < 0 ∨ 2 ≤ l
  | .listSize n => 300 * 64 < n
  | _ => False

/-- Signing has started and goes on. -/
def KeepsSet (s t : Signer) : Prop := s.started = true → t.started = true

theorem keeps_next {α β : Type} {s : Signer} {r : Res Signer α} {f : Signer → α → Res Signer β} (h : r.All (KeepsSet s))
    (g : ∀ t a, (f t a).All (KeepsSet t)) : (r.andThen f).All (KeepsSet s) := by
  cases r with
  | ok t a => exact Res.All.mono (g t a) (fun u hu hs => hu (h hs))
  | err t e => exact h
  | ub u => trivial

theorem updateHash_keeps (s : Signer) (d : Bytes) : (updateHash s d).All (KeepsSet s) := by
  unfold updateHash
  split <;> first | trivial | exact id

theorem ofOut_keeps {α : Type} (s : Signer) (o : Out α) : (Res.ofOut s o).All (KeepsSet s) := by
  cases o <;> first | trivial | exact id

theorem simplyHash_keeps (hs : Hashing) (s : Signer) (d : Bytes) (f : Bool) : (simplyHash hs s d f).All (KeepsSet s) := by
  unfold simplyHash
  split
  · exact ofOut_keeps _ _
  · refine keeps_next (updateHash_keeps s d) (fun t _ => ?_)
    split <;> first | trivial | exact id

theorem hashAndAdd_keeps (hs : Hashing) (s : Signer) (n : Nalu) (f l : Bool) : (hashAndAdd hs s n f l).All (KeepsSet s) := by
  unfold hashAndAdd
  split
  · exact id
  · dsimp only
    generalize ht : (if (f && !l) = true then { s with secondary := .open [] } else s : Signer) = t
    have h0 : KeepsSet s t := by subst ht; split <;> exact id
    clear ht
    have onErr : ∀ r : Res Signer Unit, r.All (KeepsSet t) → (r.onErr fun s => { s with e := { s.e with hashList := none } }).All (KeepsSet s) := by
      intro r hr
      cases r with
      | ok u a => exact fun h => hr (h0 h)
      | err u a => exact fun h => hr (h0 h)
      | ub u => trivial
    apply onErr
    split
    · exact updateHash_keeps _ _
    · refine keeps_next ?_ (fun u a => ?_)
      · split
        · exact simplyHash_keeps _ _ _ _
        · split
          · exact keeps_next (simplyHash_keeps _ _ _ _) (fun u a => id)
          · exact keeps_next (simplyHash_keeps _ _ _ _) (fun u a => ofOut_keeps _ _)
      · show KeepsSet u _
        split <;> exact id

theorem generateSei_keeps (hs : Hashing) (s : Signer) (rc : Option Rc) : (generateSei hs s rc).All (KeepsSet s) := by
  unfold generateSei
  split
  · exact id
  dsimp only
  split
  · trivial
  split
  · trivial
  · exact id
  · next fake hp =>
    have h3 := hashAndAdd_keeps hs { s with e := (seiStart s.opts s.encNow).2 } fake true true
    refine keeps_next (s := s) ?_ (fun t _ => ?_)
    · exact h3
    · cases rc <;> exact id

theorem prepare_keeps (s : Signer) : (prepare s).All (KeepsSet s) := by
  unfold prepare
  dsimp only
  repeat' split
  all_goals first | exact id | exact fun _ => rfl

theorem addPayload_keeps (s : Signer) (p : SeiSlot) : (addPayload s p).All (KeepsSet s) := by
  unfold addPayload
  repeat' split
  all_goals first | trivial | exact id

theorem endOfGop_keeps (hs : Hashing) (s : Signer) (ts : Option Int64) (rc : Option Rc) : (endOfGop hs s ts rc).All (KeepsSet s) := by
  unfold endOfGop
  split
  · dsimp only
    have h0 : KeepsSet s (stamp s ts) := by cases ts <;> exact id
    generalize stamp s ts = t at h0
    split
    · exact h0
    · trivial
    · next c h _ =>
      refine Res.All.mono (P := KeepsSet t) ?_ (fun u hu hs => hu (h0 hs))
      refine keeps_next (s := t) (generateSei_keeps hs { t with primary := c, e := { t.e with gopHash := h } } rc) (fun u p => ?_)
      exact keeps_next (addPayload_keeps u p) (fun v a => id)
  · exact id

theorem addNalu_keeps (hs : Hashing) (s : Signer) (d : Bytes) (ts : Option Int64) (l : Bool) (rc : Option Rc) :
    (addNalu hs s d ts l rc).All (KeepsSet s) := by
  unfold addNalu
  split
  · exact id
  · refine keeps_next ?_ (fun t p => ?_)
    · unfold nextPart
      repeat' split
      all_goals first | trivial | exact id
    · unfold addParsed
      refine keeps_next (prepare_keeps t) (fun t _ => ?_)
      split
      · exact id
      · refine keeps_next ?_ (fun t _ => ?_)
        · unfold countFrame
          dsimp only
          repeat' split
          all_goals first | trivial | exact id
        · refine keeps_next ?_ (fun t _ => ?_)
          · split
            · exact endOfGop_keeps hs t ts rc
            · exact id
          · refine keeps_next (hashAndAdd_keeps hs t _ _ _) (fun u a => ?_)
            show KeepsSet u _
            split <;> exact id

theorem fetch_keeps {s t : Signer} (h : FetchInv s t) : KeepsSet s t := by
  have := h.1
  unfold CompletedOnly at this
  rw [this]; exact id

theorem setting_keeps (hs : Hashing) (s : Signer) (x : Setting) : (applySetting hs s x).All (KeepsSet s) := by
  unfold applySetting
  dsimp only
  repeat' split
  all_goals first | trivial | exact id

theorem plain_keeps {s : Signer} {r : Res Signer Unit} (h : r.All (KeepsSet s)) : (plain r).All (KeepsSet s) := by
  cases r <;> exact h

theorem signCall_keeps (hs : Hashing) (s : Signer) (c : SCall) (hc : c ≠ .reset) : (signCall hs s c).All (KeepsSet s) := by
  cases c with
  | nalu d ts l rc => exact plain_keeps (addNalu_keeps hs s d ts l rc)
  | endOfStream rc sigs =>
    refine plain_keeps ?_
    unfold endOfStream
    refine keeps_next (prepare_keeps s) (fun t _ => ?_)
    refine keeps_next (generateSei_keeps hs t rc) (fun t p => ?_)
    exact keeps_next (addPayload_keeps t p) (fun t _ => (completeSeis_inv sigs t).mono fun u hu => fetch_keeps hu)
  | golden rc =>
    refine plain_keeps ?_
    unfold goldenSei
    dsimp only
    generalize ht : ({ s with golden := true, e := { s.e with recurrent := true, frameLevel := true } } : Signer) = t
    have h0 : KeepsSet s t := by subst ht; exact id
    have h : ((prepare t).andThen fun s _ => (generateSei hs s rc).andThen fun s p => addPayload s p).All (KeepsSet t) :=
      keeps_next (prepare_keeps t) (fun u _ => keeps_next (generateSei_keeps hs u rc) (fun v p => addPayload_keeps v p))
    split
    · next v a hr => rw [hr] at h; exact fun hs => h (h0 hs)
    · next v a hr => rw [hr] at h; exact fun hs => h (h0 hs)
    · trivial
  | getSei c p sigs => exact (getSei_inv s c p sigs).mono fun t ht => fetch_keeps ht
  | prepend a b => exact (getPrepend_inv s a b).mono fun t ht => fetch_keeps ht
  | set x => exact plain_keeps (setting_keeps hs s x)
  | reset => exact absurd rfl hc

theorem signStep_keeps {hs : Hashing} {s t : Signer} {c : SCall} {o : Obs} (hc : c ≠ .reset) (h : signStep hs s c = .ok (t, o)) :
    KeepsSet s t := by
  unfold signStep at h
  have h1 := signCall_keeps hs { s with signed := none, got := [] } c hc
  generalize signCall hs { s with signed := none, got := [] } c = r at h h1
  cases r with
  | ok t b => cases h; exact h1
  | err t b => cases h; exact h1
  | ub u => cases h

/-- Signing starts when a NAL unit (or a part) is accepted. -/
theorem nalu_starts {hs : Hashing} {s t : Signer} {d : Bytes} {ts : Option Int64} {l : Bool} {rc : Option Rc} {o : Obs}
    (h : signStep hs s (.nalu d ts l rc) = .ok (t, o)) (ho : o.rc = none) : t.started = true := by
  unfold signStep at h
  simp only [signCall] at h
  have hk := addNalu_keeps hs { s with signed := none, got := [] } d ts l rc
  cases hn : addNalu hs { s with signed := none, got := [] } d ts l rc with
  | ub u => rw [hn] at h; cases h
  | err v e => rw [hn] at h; simp only [plain, Res.andThen_err, observe] at h; cases h; cases ho
  | ok v u =>
    rw [hn] at h
    simp only [plain, Res.andThen_ok, observe] at h
    cases h
    unfold addNalu at hn
    split at hn
    · cases hn
    obtain ⟨s1, q, h1, hn⟩ := Res.andThen_eq_ok hn
    unfold addParsed at hn
    obtain ⟨s2, u2, h2, hn⟩ := Res.andThen_eq_ok hn
    have h3 : s2.started = true := by
      unfold prepare at h2
      dsimp only at h2
      split at h2
      · cases h2
      · split at h2
        · cases h2
        · cases h2; rfl
    split at hn
    · cases hn
    obtain ⟨s3, u3, h3', hn⟩ := Res.andThen_eq_ok hn
    obtain ⟨r, fc, h4⟩ := countFrame_ok h3'
    have h5 : s3.started = true := by rw [h4]; exact h3
    obtain ⟨s4, u4, h6, hn⟩ := Res.andThen_eq_ok hn
    have h7 : s4.started = true := by
      split at h6
      · have := endOfGop_keeps hs s3 ts rc
        rw [h6] at this; exact this h5
      · cases h6; exact h5
    obtain ⟨s5, u5, h8, hn⟩ := Res.andThen_eq_ok hn
    have h9 : s5.started = true := by
      have := hashAndAdd_keeps hs s4 q.1 q.2 l
      rw [h8] at this; exact this h7
    cases hn
    split <;> exact h9

theorem run_keeps {hs : Hashing} (cs : List SCall) : ∀ {s t : Signer} {os : List Obs}, (∀ c ∈ cs, c ≠ .reset) →
    signRun hs s cs = .ok (t, os) → KeepsSet s t := by
  induction cs with
  | nil => intro s t os _ h; unfold signRun at h; cases h; exact id
  | cons c cs ih =>
    intro s t os hc h
    obtain ⟨u, o, os', h1, h2, rfl⟩ := signRun_cons h
    exact fun hs => ih (fun x hx => hc x (List.mem_cons_of_mem _ hx)) h2 (signStep_keeps (hc c (List.mem_cons_self ..)) h1 hs)

/-- **C40** (signing): after a NAL unit has been accepted (in whatever session) and without a reset since then, a change of
the hash algorithm or of the golden SEI mode is refused, and everything that follows is the same as without the attempt. -/
theorem C40_frozen (hs : Hashing) (s t v : Signer) (d : Bytes) (ts : Option Int64) (l : Bool) (rc : Option Rc) (o : Obs)
    (cs : List SCall) (os : List Obs) (x : Setting)
    (h1 : signStep hs s (.nalu d ts l rc) = .ok (t, o)) (ho : o.rc = none) (hc : ∀ c ∈ cs, c ≠ .reset)
    (h2 : signRun hs t cs = .ok (v, os)) (hx : Frozen x) :
    ∃ v', signStep hs v (.set x) = .ok (v', ⟨some .notSupported, none, v.idx, none, []⟩) ∧
      ∀ c cs', signRun hs v' (c :: cs') = signRun hs v (c :: cs') := by
  have hst : v.started = true := run_keeps cs hc h2 (nalu_starts h1 ho)
  have hst' : ({ v with signed := none, got := [] } : Signer).started = true := hst
  refine ⟨{ v with signed := none, got := [] }, ?_, fun c cs' => rfl⟩
  cases x <;> simp only [Frozen] at hx <;> unfold signStep signCall applySetting <;> dsimp only <;> rw [if_pos hst] <;> rfl

/-- Values out of range are refused in every session, and everything that follows is the same as without the attempt. -/
theorem C40_range (hs : Hashing) (s : Signer) (x : Setting) (hx : OutOfRange x) :
    ∃ s', signStep hs s (.set x) = .ok (s', ⟨some .notSupported, none, s.idx, none, []⟩) ∧
      ∀ c cs, signRun hs s' (c :: cs) = signRun hs s (c :: cs) := by
  refine ⟨{ s with signed := none, got := [] }, ?_, fun c cs' => rfl⟩
  cases x with
  | recurrence r =>
    simp only [OutOfRange] at hx
    unfold signStep signCall applySetting
    dsimp only
    rw [if_pos (by omega)]
    rfl
  | level l =>
    simp only [OutOfRange] at hx
    unfold signStep signCall applySetting
    dsimp only
    by_cases h2 : 2 ≤ l
    · rw [if_pos h2]; rfl
    · rw [if_neg h2, if_pos (by omega)]; rfl
  | listSize n =>
    simp only [OutOfRange] at hx
    unfold signStep signCall applySetting
    dsimp only
    rw [if_pos (show n > hashListCap from hx)]
    rfl
  | _ => cases hx

/-- The recurrence interval never becomes zero, so that there is no division by zero. -/
theorem C40_no_division (hs : Hashing) (codec : Codec) (oid : Bytes) (v : UInt8 × UInt8 × UInt8) (xs : List Setting) (s : Signer) (os : List Obs)
    (h : signRun hs (newSigner codec oid v) (xs.map SCall.set) = .ok (s, os)) : 1 ≤ s.recurrence := by
  have key : ∀ (xs : List Setting) (a s : Signer) (os : List Obs), 1 ≤ a.recurrence → signRun hs a (xs.map SCall.set) = .ok (s, os) →
      1 ≤ s.recurrence := by
    intro xs
    induction xs with
    | nil => intro a s os h0 h; unfold signRun at h; cases h; exact h0
    | cons x xs ih =>
      intro a s os h0 h
      rw [List.map_cons] at h
      obtain ⟨u, o, os', h1, h2, rfl⟩ := signRun_cons h
      refine ih u s os' ?_ h2
      have : (applySetting hs { a with signed := none, got := [] } x).All (fun t => 1 ≤ t.recurrence) := by
        unfold applySetting
        dsimp only
        repeat' split
        all_goals first | trivial | exact h0 | (show 1 ≤ _; simp only; omega)
      unfold signStep at h1
      simp only [signCall] at h1
      cases hr : applySetting hs { a with signed := none, got := [] } x with
      | ub w => rw [hr] at h1; cases h1
      | ok w y => rw [hr] at h1 this; cases h1; exact this
      | err w y => rw [hr] at h1 this; cases h1; exact this
  exact key xs _ s os (Nat.le_refl _) h

/-- A session that has accepted a NAL unit and had its SEIs fetched refuses another hash algorithm. -/
example : ∃ s t v o os v', signStep toyHashing s (.nalu [0, 0, 0, 1, 0x65, 0x88, 0x84, 0x80] none true none) = .ok (t, o) ∧
    signRun toyHashing t [.nalu [0, 0, 0, 1, 0x65, 0x88, 0x84, 0x80] none true none, .getSei true none [.ok [1, 2]]] = .ok (v, os) ∧
    signStep toyHashing v (.set (.hashAlgo none)) = .ok (v', ⟨some .notSupported, none, 0, none, []⟩) := by
  obtain ⟨a, os, h1, h2⟩ := runCheck2 toyHashing (newSigner .h264 [0x60, 0x86] (2, 2, 0))
    [.set (.privateKey (some ([9, 9, 9], 72)) true), .nalu [0, 0, 0, 1, 0x65, 0x88, 0x84, 0x80] none true none,
      .nalu [0, 0, 0, 1, 0x65, 0x88, 0x84, 0x80] none true none, .getSei true none [.ok [1, 2]]]
    (fun s os => acceptedB [.set (.privateKey (some ([9, 9, 9], 72)) true), .nalu [0, 0, 0, 1, 0x65, 0x88, 0x84, 0x80] none true none,
      .nalu [0, 0, 0, 1, 0x65, 0x88, 0x84, 0x80] none true none, .getSei true none [.ok [1, 2]]] os && decide (s.idx = 0)) (by decide +kernel)
  simp only [Bool.and_eq_true, decide_eq_true_eq] at h2
  obtain ⟨s, o0, os0, a1, a2, rfl⟩ := signRun_cons h1
  obtain ⟨t, o1, os1, b1, b2, rfl⟩ := signRun_cons a2
  have hacc := accepted_of_check _ _ h2.1
  obtain ⟨v', c1, -⟩ := C40_frozen toyHashing s t a _ _ _ _ _ _ _ (.hashAlgo none) b1 hacc.1 (by simp) b2 trivial
  rw [h2.2] at c1
  exact ⟨s, t, a, o1, os1, v', b1, b2, c1⟩

end SV
