import Verif.Proofs.SignTold
import Verif.Proofs.SignCounter
/-! What the calls of a signing session do to the frame counter and the flag for recurrent data. -/
namespace SV
open Spec

theorem tlvWrite_recurrent (epb : Bool) (e : EncState) (s : L2) (t : Tuple) :
    (tlvWrite epb e s t).2.2.recurrent = e.recurrent := by
  rw [tlvWrite_state]
  split
  · rfl
  · unfold afterWrite
    split
    · rfl
    · split <;> rfl

theorem tlvListWrite_recurrent (epb : Bool) (ts : List UInt8) : ∀ (e : EncState) (s : L2),
    (tlvListWrite epb e s ts).2.2.recurrent = e.recurrent := by
  induction ts with
  | nil => intro e s; rfl
  | cons t ts ih =>
    intro e s
    unfold tlvListWrite
    split
    · dsimp only
      rw [ih, tlvWrite_recurrent]
    · exact ih e s

theorem seiStart_recurrent (o : SeiOpts) (e : EncState) : (seiStart o e).2.recurrent = e.recurrent := by
  unfold seiStart
  dsimp only
  rw [tlvListWrite_recurrent, tlvListWrite_recurrent, tlvListWrite_recurrent]
  unfold applyFallback; split <;> rfl

/-- The members that decide about recurrent data. -/
def Signer.rk (s : Signer) : Nat × Nat × Bool × Bool × Codec :=
  (s.frameCount, s.recurrence, s.e.recurrent, s.lastIsLast, s.codec)

/-- Nothing of these changes, and no SEI is generated. -/
def Rest (s t : Signer) : Prop := t.rk = s.rk ∧ t.signed = s.signed

theorem Rest.refl (s : Signer) : Rest s s := ⟨rfl, rfl⟩
theorem Rest.trans {a b c : Signer} (h : Rest a b) (g : Rest b c) : Rest a c := ⟨g.1.trans h.1, g.2.trans h.2⟩

theorem updateHash_rest (s : Signer) (d : Bytes) : (updateHash s d).All (Rest s) := by
  unfold updateHash
  split <;> first | trivial | exact ⟨rfl, rfl⟩

theorem ofOut_rest {α : Type} (s : Signer) (o : Out α) : (Res.ofOut s o).All (Rest s) := by
  cases o <;> first | trivial | exact ⟨rfl, rfl⟩

theorem All.next {α β : Type} {s : Signer} {r : Res Signer α} {f : Signer → α → Res Signer β} (h : r.All (Rest s))
    (g : ∀ t a, (f t a).All (Rest t)) : (r.andThen f).All (Rest s) := by
  cases r with
  | ok t a => exact Res.All.mono (g t a) (fun u hu => Rest.trans h hu)
  | err t e => exact h
  | ub u => trivial

theorem simplyHash_rest (hs : Hashing) (s : Signer) (d : Bytes) (f : Bool) : (simplyHash hs s d f).All (Rest s) := by
  unfold simplyHash
  split
  · exact ofOut_rest _ _
  · refine All.next (updateHash_rest s d) (fun t _ => ?_)
    split <;> first | trivial | exact ⟨rfl, rfl⟩

theorem hashAndAdd_rest (hs : Hashing) (s : Signer) (n : Nalu) (f l : Bool) : (hashAndAdd hs s n f l).All (Rest s) := by
  unfold hashAndAdd
  split
  · exact Rest.refl s
  · dsimp only
    generalize ht : (if (f && !l) = true then { s with secondary := .open [] } else s : Signer) = t
    have h0 : Rest s t := by subst ht; split <;> exact ⟨rfl, rfl⟩
    clear ht
    have onErr : ∀ r : Res Signer Unit, r.All (Rest t) → (r.onErr fun s => { s with e := { s.e with hashList := none } }).All (Rest s) := by
      intro r hr
      cases r with
      | ok u a => exact h0.trans hr
      | err u a => exact h0.trans hr
      | ub u => trivial
    apply onErr
    split
    · exact updateHash_rest _ _
    · refine All.next ?_ (fun u a => ?_)
      · split
        · exact simplyHash_rest _ _ _ _
        · split
          · exact All.next (simplyHash_rest _ _ _ _) (fun u a => ⟨rfl, rfl⟩)
          · exact All.next (simplyHash_rest _ _ _ _) (fun u a => ofOut_rest _ _)
      · show Rest u _
        split <;> exact ⟨rfl, rfl⟩

/-- A generated SEI takes the flag along. -/
theorem generateSei_recur {hs : Hashing} {s t : Signer} {rc : Option Rc} {p : SeiSlot} (h : generateSei hs s rc = .ok t p) :
    t.rk = s.rk ∧ ∃ g, t.signed = some g ∧ g.e.recurrent = s.e.recurrent := by
  unfold generateSei at h
  split at h
  · cases h
  dsimp only at h
  split at h
  · cases h
  split at h
  · cases h
  · cases h
  · next fake hp =>
    have h3 := hashAndAdd_rest hs { s with e := (seiStart s.opts s.encNow).2 } fake true true
    obtain ⟨u, a, h4, h5⟩ := Res.andThen_eq_ok h
    rw [h4] at h3
    cases rc with
    | some e => cases h5
    | none =>
      cases h5
      refine ⟨?_, _, rfl, rfl⟩
      have h6 := h3.1
      have h7 : (seiStart s.opts s.encNow).2.recurrent = s.e.recurrent := seiStart_recurrent _ _
      show u.rk = _
      rw [h6]
      unfold Signer.rk
      dsimp only
      rw [h7]

theorem addPayload_rest (s : Signer) (p : SeiSlot) : (addPayload s p).All (Rest s) := by
  unfold addPayload
  repeat' split
  all_goals first | trivial | exact ⟨rfl, rfl⟩

theorem endOfGop_recur {hs : Hashing} {s t : Signer} {ts : Option Int64} {rc : Option Rc} {u : Unit} (h : endOfGop hs s ts rc = .ok t u) :
    t.rk = s.rk ∧ (t.signed = s.signed ∨ ∃ g, t.signed = some g ∧ g.e.recurrent = s.e.recurrent) := by
  unfold endOfGop at h
  split at h
  · dsimp only at h
    have h0 : Rest s (stamp s ts) := by cases ts <;> exact ⟨rfl, rfl⟩
    generalize stamp s ts = w at h0 h
    split at h
    · cases h
    · cases h
    · obtain ⟨a, p, h1, h2⟩ := Res.andThen_eq_ok h
      obtain ⟨b, q, h3, h4⟩ := Res.andThen_eq_ok h2
      cases h4
      obtain ⟨g1, g, g2, g3⟩ := generateSei_recur h1
      have g4 := addPayload_rest a p
      rw [h3] at g4
      have e : w.e.recurrent = s.e.recurrent := congrArg (fun x => x.2.2.1) h0.1
      exact ⟨g4.1.trans (g1.trans h0.1), .inr ⟨g, g4.2.trans g2, g3.trans e⟩⟩
  · cases h; exact ⟨rfl, .inl rfl⟩

/-- The flag of a parsed NAL unit that makes it count. -/
theorem parse_counts (c : Codec) (d : Bytes) (n : Nalu) (ct auth : Bool) (hd : d ≠ []) (h : parseNalu d c ct auth = .ok n) :
    n.primary = countsAsFrame c d ∧ (n.firstInGop = true → n.primary = true) := by
  match d, h with
  | [], _ => exact absurd rfl hd
  | [_], h => simp [parseNalu] at h
  | [_, _], h => simp [parseNalu] at h
  | [_, _, _], h => simp [parseNalu] at h
  | a :: b :: x :: y :: rest, h =>
    simp only [parseNalu, body_drop] at h
    have hb : sliceByte c (a :: b :: x :: y :: rest) = (body (a :: b :: x :: y :: rest)).getD (hdr c) 0 := rfl
    unfold countsAsFrame
    rw [hb]
    generalize body (a :: b :: x :: y :: rest) = m at h
    cases hp : parseHeader c m with
    | err e => rw [hp] at h; simp at h
    | ub u => rw [hp] at h; simp at h
    | ok z =>
      obtain ⟨t, v, prim⟩ := z
      rw [hp] at h
      simp only [Out.bind_ok] at h
      have key : n.primary = prim ∧ (n.firstInGop = true → n.primary = true) := by
        cases hsz : (if ct then trimmedLen (a :: b :: x :: y :: rest) else .ok (a :: b :: x :: y :: rest).length) with
        | err e => rw [hsz] at h; simp at h
        | ub u => rw [hsz] at h; simp at h
        | ok size =>
          rw [hsz] at h
          simp only [Out.bind_ok] at h
          split at h
          · obtain ⟨-, -, -, h4, h5⟩ := parseSei_ntype c auth _ n _ _ h
            refine ⟨h5, fun hf => ?_⟩
            rw [h4] at hf
            simp only [Bool.and_eq_true] at hf
            rw [h5]; exact hf.2
          · cases h
            refine ⟨rfl, fun hf => ?_⟩
            simp only [Bool.and_eq_true] at hf
            exact hf.2
      refine ⟨key.1.trans ?_, key.2⟩
      have hbit : ∀ z : UInt8, (z &&& 0x80 != 0) = decide (128 ≤ z.toNat) := by
        intro z
        have hfin : ∀ x : Fin 256, (UInt8.ofNat x.val &&& 0x80 != 0) = decide (128 ≤ x.val) := by decide +kernel
        have := hfin ⟨z.toNat, z.toNat_lt⟩
        simpa using this
      match m, hp with
      | [], hp => cases c <;> simp [parseHeader] at hp
      | [_], hp => cases c <;> simp [parseHeader] at hp
      | b0 :: b1 :: m, hp =>
        cases c with
        | h264 =>
          simp only [parseHeader, Out.ok.injEq, Prod.mk.injEq] at hp
          rw [← hp.2.2, hbit]
          simp [hdr]
        | h265 =>
          have i2 := tid_fin ⟨b1.toNat, b1.toNat_lt⟩
          simp only [UInt8.ofNat_toNat] at i2
          simp only [parseHeader] at hp
          by_cases ht : b1 &&& 0x07 = 0
          · have hn : h265Type b0 b1 = none := by simp [h265Type, ht]
            rw [hn] at hp
            simp only [Out.ok.injEq, Prod.mk.injEq] at hp
            rw [← hp.2.2]
            simp [i2.1 ht]
          · have hs : h265Type b0 b1 = some _ := if_neg ht
            rw [hs] at hp
            have h8 : b1.toNat % 8 ≠ 0 := fun h => ht (i2.2 h)
            match m, hp with
            | [], hp => cases hp
            | b2 :: m, hp =>
              simp only [Out.ok.injEq, Prod.mk.injEq] at hp
              rw [← hp.2.2, hbit]
              simp [hdr, h8]

/-- The session is described by `r`. -/
def RecurAt (s : Signer) (r : Recur) : Prop := s.frameCount = r.frames ∧ s.recurrence = r.interval ∧ s.e.recurrent = r.due

/-- An accepted NAL unit. -/
theorem addNalu_recur {hs : Hashing} {s t : Signer} {d : Bytes} {ts : Option Int64} {rc : Option Rc} {u : Unit} {r : Recur}
    (h : addNalu hs s d ts true rc = .ok t u) (hl : s.lastIsLast = true) (hn : s.signed = none) (hr : RecurAt s r) :
    RecurAt t (r.next (countsAsFrame s.codec) (.nalu d ts true rc) {}) ∧ t.lastIsLast = true ∧ t.codec = s.codec ∧
    ∀ g, t.signed = some g → g.e.recurrent = (r.next (countsAsFrame s.codec) (.nalu d ts true rc) {}).due ∧ countsAsFrame s.codec d = true := by
  unfold addNalu at h
  by_cases hd : d = []
  · rw [if_pos hd] at h; cases h
  rw [if_neg hd] at h
  obtain ⟨s1, q, h1, h⟩ := Res.andThen_eq_ok h
  unfold nextPart at h1
  rw [hl, if_pos rfl] at h1
  cases hp : parseNalu d s.codec true false with
  | err e => rw [hp] at h1; cases h1
  | ub e => rw [hp] at h1; cases h1
  | ok n =>
  rw [hp] at h1
  cases h1
  obtain ⟨p1, p2⟩ := parse_counts _ _ _ _ _ hd hp
  unfold addParsed at h
  obtain ⟨s2, u2, h2, h⟩ := Res.andThen_eq_ok h
  have e2 : s2.rk = (r.frames, r.interval, r.due, true, s.codec) ∧ s2.signed = none := by
    unfold prepare at h2
    dsimp only at h2
    split at h2
    · cases h2
    · split at h2
      · cases h2
      · cases h2
        refine ⟨?_, hn⟩
        show (s.frameCount, s.recurrence, s.e.recurrent, true, s.codec) = _
        rw [hr.1, hr.2.1, hr.2.2]
  split at h
  · cases h
  obtain ⟨s3, u3, h3, h⟩ := Res.andThen_eq_ok h
  dsimp only at h h3
  have e3 : s3.signed = none ∧
      s3.rk = ((r.next (countsAsFrame s.codec) (.nalu d ts true rc) {}).frames, r.interval,
        (r.next (countsAsFrame s.codec) (.nalu d ts true rc) {}).due, true, s.codec) := by
    obtain ⟨e2, e2'⟩ := e2
    simp only [Signer.rk, Prod.mk.injEq] at e2
    obtain ⟨a1, a2, a3, a4, a5⟩ := e2
    unfold countFrame at h3
    rw [p1] at h3
    unfold Recur.next
    cases hc : countsAsFrame s.codec d with
    | false =>
      rw [hc] at h3
      simp only [Bool.false_and, Bool.false_eq_true, if_false] at h3 ⊢
      cases h3
      refine ⟨e2', ?_⟩
      unfold Signer.rk
      rw [a1, a2, a3, a4, a5, hc]
      rfl
    | true =>
      rw [hc] at h3
      simp only [Bool.true_and, if_true] at h3 ⊢
      rw [a1, a2] at h3
      by_cases hm : r.frames % r.interval = 0
      · rw [if_pos hm] at h3
        split at h3
        · cases h3
        · cases h3
          refine ⟨e2', ?_⟩
          unfold Signer.rk
          dsimp only
          rw [a4, a5]
          simp [hm, hc]
      · rw [if_neg hm] at h3
        split at h3
        · cases h3
        · cases h3
          refine ⟨e2', ?_⟩
          unfold Signer.rk
          dsimp only
          rw [a3, a4, a5]
          simp [hm, hc, a1, a2]
  have hint : (r.next (countsAsFrame s.codec) (.nalu d ts true rc) {}).interval = r.interval := by
    unfold Recur.next; dsimp only; split <;> rfl
  generalize r.next (countsAsFrame s.codec) (.nalu d ts true rc) {} = r' at e3 hint
  rw [← hint] at e3
  obtain ⟨s4, u4, h4, h⟩ := Res.andThen_eq_ok h
  obtain ⟨s5, u5, h5, h⟩ := Res.andThen_eq_ok h
  have e5 := hashAndAdd_rest hs s4 n true true
  rw [h5] at e5
  have e4 : s4.rk = s3.rk ∧ ∀ g, s4.signed = some g → g.e.recurrent = r'.due ∧ countsAsFrame s.codec d = true := by
    split at h4
    · next hf =>
      obtain ⟨k1, k2⟩ := endOfGop_recur h4
      refine ⟨k1, fun g hg => ?_⟩
      rcases k2 with k2 | ⟨g', k2, k3⟩
      · rw [k2, e3.1] at hg; cases hg
      · rw [k2] at hg; cases hg
        refine ⟨k3.trans (congrArg (fun x => x.2.2.1) e3.2), ?_⟩
        rw [← p1]; simp only [Bool.and_true] at hf; exact p2 hf
    · cases h4
      exact ⟨rfl, fun g hg => by rw [e3.1] at hg; cases hg⟩
  have e6 : t.rk = s5.rk ∧ t.signed = s5.signed := by
    cases h; split <;> exact ⟨rfl, rfl⟩
  have e7 : t.rk = (r'.frames, r'.interval, r'.due, true, s.codec) := by rw [e6.1, e5.1, e4.1, e3.2]
  simp only [Signer.rk, Prod.mk.injEq] at e7
  refine ⟨⟨e7.1, e7.2.1, e7.2.2.1⟩, e7.2.2.2.1, e7.2.2.2.2, fun g hg => e4.2 g ?_⟩
  rw [← e5.2, ← e6.2]; exact hg

/-! ### Fetching SEIs -/

/-- Nothing changes but the flag, which is cleared when signatures were taken. -/
def Cleared (s t : Signer) : Prop :=
  t.frameCount = s.frameCount ∧ t.recurrence = s.recurrence ∧ t.lastIsLast = s.lastIsLast ∧ t.codec = s.codec ∧ t.signed = s.signed ∧
  s.got.length ≤ t.got.length ∧ t.e.recurrent = (s.e.recurrent && decide (t.got.length = s.got.length))

theorem Cleared.refl (s : Signer) : Cleared s s := ⟨rfl, rfl, rfl, rfl, rfl, Nat.le_refl _, by simp⟩

theorem Cleared.trans {a b c : Signer} (h : Cleared a b) (g : Cleared b c) : Cleared a c := by
  obtain ⟨h1, h2, h3, h4, h5, h6, h7⟩ := h
  obtain ⟨g1, g2, g3, g4, g5, g6, g7⟩ := g
  refine ⟨g1.trans h1, g2.trans h2, g3.trans h3, g4.trans h4, g5.trans h5, by omega, ?_⟩
  rw [g7, h7]
  by_cases x : b.got.length = a.got.length
  · rw [x] at g6 ⊢; simp
  · have : c.got.length ≠ a.got.length := by omega
    simp [x, this]

theorem completeSeis_cleared (sigs : List SigAnswer) : ∀ (s : Signer) (q : Queue), QAbs s q →
    (oks sigs).length ≤ q.P.length → (∀ x ∈ oks sigs, x ≠ []) → (completeSeis s sigs).All (Cleared s) := by
  induction sigs with
  | nil => intro s q h _ _; exact Cleared.refl s
  | cons a sigs ih =>
    intro s q h hn hx
    cases a with
    | error e => exact Cleared.refl s
    | ok sig =>
      obtain ⟨C, P⟩ := q
      cases P with
      | nil => simp [oks] at hn
      | cons g P =>
        unfold completeSeis
        split
        · trivial
        · have hsig : sig ≠ [] := hx sig (by simp [oks])
          have h' : QAbs { s with e := { s.e with signature := sig }, got := s.got ++ [sig] } ⟨C, g :: P⟩ :=
            ⟨h.buf, h.le, h.idx, h.completed⟩
          rcases completeSei_step _ C g P h' hsig with hu | ⟨t, ht, hq, hgot, hsd, hco, he⟩
          · rw [hu]; trivial
          · rw [ht]
            simp only [Res.andThen_ok]
            have hcs : Cleared s t := by
              unfold CompletedOnly at hco
              rw [hco]
              refine ⟨rfl, rfl, rfl, rfl, rfl, ?_, ?_⟩
              · show s.got.length ≤ t.got.length
                rw [hgot]; simp
              · show t.e.recurrent = (s.e.recurrent && decide (t.got.length = s.got.length))
                rw [hgot, he]; simp
            exact (ih t _ hq (by simp [oks] at hn ⊢; omega) (fun x hm => hx x (by simp [oks, hm]))).mono (fun v hv => hcs.trans hv)

theorem handOut_cleared (s : Signer) (i : Nat) (copy : Bool) : (handOut s i copy).All (Cleared s) := by
  have key : ∀ (t : Signer) b i, Cleared s t → ((shiftBuf t i).andThen fun s _ => .ok s b : Res Signer (Option Bytes)).All (Cleared s) := by
    intro t b i ht
    unfold shiftBuf
    split
    · trivial
    · split
      · trivial
      · exact ht
  unfold handOut
  split
  · trivial
  · split
    · exact Cleared.refl s
    · split
      · split
        · exact key { s with completed := s.completed - 1 } _ _ (Cleared.refl s)
        · trivial
      · trivial
      · split
        · trivial
        · exact key { s with completed := s.completed - 1 } _ _ (Cleared.refl s)

theorem getSei_cleared (s : Signer) (copy : Bool) (peek : Option Bytes) (sigs : List SigAnswer) (q : Queue)
    (h : QAbs s q) (h1 : (oks sigs).length ≤ q.P.length)
    (h2 : ∀ x ∈ oks sigs, x ≠ []) : (getSei s copy peek sigs).All (Cleared s) := by
  have hcs := completeSeis_cleared sigs s q h h1 h2
  unfold getSei
  cases hr : completeSeis s sigs with
  | ub u => trivial
  | err t e => rw [hr] at hcs; exact hcs
  | ok t a =>
    rw [hr] at hcs
    have hcs' : Cleared s t := hcs
    simp only [Res.andThen_ok]
    split
    · exact hcs'
    · split
      · split
        · trivial
        · exact hcs'
        · split
          · exact (handOut_cleared t 0 copy).mono (fun v hv => hcs'.trans hv)
          · exact hcs'
      · exact (handOut_cleared t 0 copy).mono (fun v hv => hcs'.trans hv)

theorem getPrepend_cleared (s : Signer) (a b : List SigAnswer) (q : Queue)
    (h : QAbs s q) (hg : s.got = []) (h1 : (oks a ++ oks b).length ≤ q.P.length)
    (h2 : ∀ x ∈ oks a ++ oks b, x ≠ []) : (getPrepend s a b).All (Cleared s) := by
  have hla : (oks a).length ≤ q.P.length := by rw [List.length_append] at h1; omega
  have hcs := completeSeis_cleared a s q h hla (fun x hx => h2 x (by simp [hx]))
  have hst := completeSeis_step a s q h hla (fun x hx => h2 x (by simp [hx]))
  unfold getPrepend
  cases hr : completeSeis s a with
  | ub u => trivial
  | err t e => rw [hr] at hcs; exact hcs
  | ok t x =>
    rw [hr] at hcs hst
    have hcs' : Cleared s t := hcs
    obtain ⟨ds, P, k1, k2, k3, k4, k5, k6⟩ := hst
    simp only [Res.andThen_ok]
    split
    · exact hcs'
    · split
      · trivial
      · split
        · exact hcs'
        · refine Res.All.intoRoom _ ?_
          unfold getLatest
          have hlen : (oks b).length ≤ P.length := by
            have := congrArg List.length k1
            rw [List.length_append, List.length_map] at this
            have hds : ds.length = (oks a).length := completeSeis_count a s t hr hg k3
            rw [List.length_append] at h1; omega
          have hcb := completeSeis_cleared b t _ k2 hlen (fun x hx => h2 x (by simp [hx]))
          cases hr2 : completeSeis t b with
          | ub u => trivial
          | err v e => rw [hr2] at hcb; exact hcs'.trans hcb
          | ok v y =>
            rw [hr2] at hcb
            simp only [Res.andThen_ok]
            split
            · exact hcs'.trans hcb
            · exact (handOut_cleared v _ true).mono (fun w hw => (hcs'.trans hcb).trans hw)

/-! ### Calls -/

/-- Complete NAL units, fetching and settings. -/
def Plainly : SCall → Prop
  | .nalu _ _ last _ => last = true
  | .getSei _ _ _ => True
  | .prepend _ _ => True
  | .set _ => True
  | _ => False

theorem setting_recur (hs : Hashing) (s : Signer) (x : Setting) :
    match applySetting hs s x with
    | .ok t _ => t.signed = s.signed ∧ t.got = s.got ∧ t.rk = (s.frameCount, (match x with | .recurrence n => n | _ => s.recurrence),
        s.e.recurrent, s.lastIsLast, s.codec)
    | .err t _ => t.signed = s.signed ∧ t.got = s.got ∧ t.rk = s.rk
    | .ub _ => True := by
  cases x <;> unfold applySetting <;> (try dsimp only) <;> (repeat' split) <;>
    first | trivial | exact ⟨rfl, rfl, rfl⟩ | (next h => (repeat' split at h) <;> cases h <;> exact ⟨rfl, rfl, rfl⟩)

theorem step_recur {hs : Hashing} {s t : Signer} {c : SCall} {o : Obs} {q : Queue} {r : Recur} (hq : QAbs s q)
    (h1 : (offered c).length ≤ q.P.length + extra c) (h2 : ∀ x ∈ offered c, x ≠ [])
    (hc : Plainly c) (hl : s.lastIsLast = true) (ha : ∀ d ts l rc, c = .nalu d ts l rc → o.rc = none)
    (hr : RecurAt s r) (h : signStep hs s c = .ok (t, o)) :
    RecurAt t (r.next (countsAsFrame s.codec) c o) ∧ t.lastIsLast = true ∧ t.codec = s.codec ∧
    ∀ g, o.signed = some g → g.e.recurrent = (r.next (countsAsFrame s.codec) c o).due ∧
      ∃ d ts rc, c = .nalu d ts true rc ∧ countsAsFrame s.codec d = true := by
  unfold signStep at h
  have hq' : QAbs { s with signed := none, got := [] } q := ⟨hq.buf, hq.le, hq.idx, hq.completed⟩
  have hr' : RecurAt { s with signed := none, got := [] } r := hr
  have fetch : ∀ x : Res Signer (Option Bytes), x.All (Cleared { s with signed := none, got := [] }) →
      observe x = .ok (t, o) → t.frameCount = s.frameCount ∧ t.recurrence = s.recurrence ∧ t.lastIsLast = true ∧ t.codec = s.codec ∧
        o.signed = none ∧ t.e.recurrent = if o.got = [] then s.e.recurrent else false := by
    intro x hx ho
    have fin : ∀ u : Signer, Cleared { s with signed := none, got := [] } u → u.frameCount = s.frameCount ∧ u.recurrence = s.recurrence ∧ u.lastIsLast = true ∧ u.codec = s.codec ∧
        u.signed = none ∧ u.e.recurrent = if u.got = [] then s.e.recurrent else false := by
      intro u hu
      obtain ⟨g1, g2, g3, g4, g5, g6, g7⟩ := hu
      refine ⟨g1, g2, g3.trans hl, g4, g5, ?_⟩
      rw [g7]
      by_cases hg : u.got = []
      · simp [hg]
      · simp [hg]
    cases x with
    | ok u b => cases ho; exact fin _ hx
    | err u e => cases ho; exact fin _ hx
    | ub u => cases ho
  have fetched : (∃ x : Res Signer (Option Bytes), x.All (Cleared { s with signed := none, got := [] }) ∧ observe x = .ok (t, o)) →
      r.next (countsAsFrame s.codec) c o = (if o.got = [] then r else { r with due := false }) →
      RecurAt t (r.next (countsAsFrame s.codec) c o) ∧ t.lastIsLast = true ∧ t.codec = s.codec ∧
      ∀ g, o.signed = some g → g.e.recurrent = (r.next (countsAsFrame s.codec) c o).due ∧
        ∃ d ts rc, c = .nalu d ts true rc ∧ countsAsFrame s.codec d = true := by
    rintro ⟨x, hx, ho⟩ hnext
    obtain ⟨g1, g2, g3, g4, g5, g6⟩ := fetch x hx ho
    rw [hnext]
    refine ⟨⟨?_, ?_, ?_⟩, g3, g4, fun g hg => by rw [g5] at hg; cases hg⟩
    · rw [g1, hr.1]; split <;> rfl
    · rw [g2, hr.2.1]; split <;> rfl
    · rw [g6, hr.2.2]; split <;> rfl
  cases c with
  | nalu d ts l rc =>
    simp only [Plainly] at hc
    subst hc
    have hrc := ha d ts true rc rfl
    cases hn : addNalu hs { s with signed := none, got := [] } d ts true rc with
    | ok v u =>
      simp only [signCall, plain, hn, Res.andThen_ok, observe] at h
      cases h
      obtain ⟨k1, k2, k3, k4⟩ := addNalu_recur hn hl rfl hr'
      exact ⟨k1, k2, k3, fun g hg => ⟨(k4 g hg).1, d, ts, rc, rfl, (k4 g hg).2⟩⟩
    | err v e =>
      simp only [signCall, plain, hn, Res.andThen_err, observe] at h
      cases h
      cases hrc
    | ub u =>
      simp only [signCall, plain, hn, Res.andThen_ub, observe] at h
      cases h
  | getSei a b x => exact fetched ⟨_, getSei_cleared _ a b x q hq' h1 h2, h⟩ rfl
  | prepend a b => exact fetched ⟨_, getPrepend_cleared _ a b q hq' rfl h1 h2, h⟩ rfl
  | set y =>
    have hsr := setting_recur hs { s with signed := none, got := [] } y
    simp only [signCall] at h
    cases hx : applySetting hs { s with signed := none, got := [] } y with
    | ub u => rw [hx] at h; cases h
    | ok v u =>
      rw [hx] at h hsr
      simp only [plain, Res.andThen_ok, observe] at h
      cases h
      obtain ⟨k1, -, k2⟩ := hsr
      simp only [Signer.rk, Prod.mk.injEq] at k2
      obtain ⟨k2, k3, k4, k5, k6⟩ := k2
      refine ⟨?_, k5.trans hl, k6, fun g hg => by rw [show t.signed = none from k1] at hg; cases hg⟩
      cases y
      all_goals first
        | exact ⟨k2.trans hr.1, k3.trans hr.2.1, k4.trans hr.2.2⟩
        | exact ⟨k2.trans hr.1, k3, k4.trans hr.2.2⟩
    | err v u =>
      rw [hx] at h hsr
      simp only [plain, Res.andThen_err, observe] at h
      cases h
      obtain ⟨k1, -, k2⟩ := hsr
      simp only [Signer.rk, Prod.mk.injEq] at k2
      obtain ⟨k2, k3, k4, k5, k6⟩ := k2
      refine ⟨?_, k5.trans hl, k6, fun g hg => by rw [show t.signed = none from k1] at hg; cases hg⟩
      cases y
      all_goals exact ⟨k2.trans hr.1, k3.trans hr.2.1, k4.trans hr.2.2⟩
  | endOfStream _ _ => cases hc
  | golden _ => cases hc
  | reset => cases hc

theorem run_recur {hs : Hashing} (cs : List SCall) : ∀ {s s' : Signer} {os : List Obs} {q : Queue} {r : Recur}, QAbs s q →
    Honest hs s q.P.length cs → (∀ c ∈ cs, Plainly c) → s.lastIsLast = true → RecurAt s r → signRun hs s cs = .ok (s', os) →
    Accepted cs os → (os.filterMap Obs.signed).map (·.e.recurrent) = r.dues (countsAsFrame s.codec) cs os := by
  induction cs with
  | nil =>
    intro s s' os q r _ _ _ _ _ hr _
    unfold signRun at hr
    cases hr
    rfl
  | cons c cs ih =>
    intro s s' os q r hq hh hc hl hra hr ha
    obtain ⟨t, o, os', h1, h2, rfl⟩ := signRun_cons hr
    have hn : ∀ d ts l rc, c = .nalu d ts l rc → o.rc = none := by
      rintro d ts l rc rfl
      exact ha.1
    have ha' : Accepted cs os' := by
      cases c with
      | nalu d ts l rc => exact ha.2
      | _ => exact ha
    obtain ⟨b1, b2, b3⟩ := hh
    have hst := signStep_q hs s c q hq b1 b2
    rw [h1] at hst
    obtain ⟨q1, k1, k2, k3⟩ := hst
    obtain ⟨e1, e2, e3, e4⟩ := step_recur hq b1 b2 (hc c (List.mem_cons_self ..)) hl hn hra h1
    have hon := b3 t o h1
    rw [← k2.outstanding] at hon
    have := ih k1 hon (fun x hx => hc x (List.mem_cons_of_mem _ hx)) e2 e1 h2 ha'
    rw [e3] at this
    unfold Recur.dues
    rw [← this, List.filterMap_cons]
    cases ho : o.signed with
    | none => simp
    | some g =>
      have := (e4 g ho).1
      simp [this]

/-- In a session that starts empty, the data is due in the first SEI. -/
theorem first_recur {hs : Hashing} (cs : List SCall) : ∀ {s s' : Signer} {os : List Obs} {q : Queue} {r : Recur}, QAbs s q → q.P = [] →
    Honest hs s 0 cs → (∀ c ∈ cs, Plainly c) → s.lastIsLast = true → RecurAt s r → (1 ≤ r.frames → r.due = true) →
    signRun hs s cs = .ok (s', os) →
    Accepted cs os → ∀ b, (r.dues (countsAsFrame s.codec) cs os)[0]? = some b → b = true := by
  induction cs with
  | nil =>
    intro s s' os q r _ _ _ _ _ _ _ hr _ b hb
    unfold signRun at hr
    cases hr
    cases hb
  | cons c cs ih =>
    intro s s' os q r hq hP hh hc hl hra hfr hr ha b hb
    obtain ⟨t, o, os', h1, h2, rfl⟩ := signRun_cons hr
    have hn : ∀ d ts l rc, c = .nalu d ts l rc → o.rc = none := by
      rintro d ts l rc rfl
      exact ha.1
    have ha' : Accepted cs os' := by
      cases c with
      | nalu d ts l rc => exact ha.2
      | _ => exact ha
    obtain ⟨b1, b2, b3⟩ := hh
    have hp0 : q.P.length = 0 := by rw [hP]; rfl
    rw [← hp0] at b1
    have hst := signStep_q hs s c q hq b1 b2
    rw [h1] at hst
    obtain ⟨q1, k1, k2, k3⟩ := hst
    obtain ⟨e1, e2, e3, e4⟩ := step_recur hq b1 b2 (hc c (List.mem_cons_self ..)) hl hn hra h1
    have hdue : ∀ d ts l rc, c = .nalu d ts l rc → countsAsFrame s.codec d = true → (r.next (countsAsFrame s.codec) c o).due = true := by
      rintro d ts l rc rfl hcf
      simp only [Recur.next, hcf, if_true]
      by_cases hf : 1 ≤ r.frames
      · rw [hfr hf]; rfl
      · have : r.frames = 0 := by omega
        rw [this]; simp
    cases ho : o.signed with
    | some g =>
      obtain ⟨f1, d, ts, rc, f2, f3⟩ := e4 g ho
      have := hdue d ts true rc f2 f3
      unfold Recur.dues at hb
      rw [ho] at hb
      simp at hb
      rw [← hb]; exact this
    | none =>
      have hq1 : q1.P = [] ∧ o.got = [] := by
        obtain ⟨gs, ds, m1, m2, m3, m4, m5, m7, m6⟩ := k2
        rw [ho] at m3
        have : gs = [] := List.head?_eq_none_iff.1 m3.symm
        rw [hP, this] at m4
        have m4' := List.append_eq_nil_iff.1 m4.symm
        have hds : ds = [] := List.map_eq_nil_iff.1 m4'.1
        rw [hds] at m5
        exact ⟨m4'.2, m5⟩
      have hon := b3 t o h1
      rw [ho, hq1.2] at hon
      have hb' : ((r.next (countsAsFrame s.codec) c o).dues (countsAsFrame s.codec) cs os')[0]? = some b := by
        unfold Recur.dues at hb
        rw [ho] at hb
        simpa using hb
      rw [← e3] at hb'
      refine ih k1 hq1.1 (by simpa using hon) (fun x hx => hc x (List.mem_cons_of_mem _ hx)) e2 (by rw [e3]; exact e1) ?_ h2 ha' b hb'
      rw [e3]
      intro hf
      cases c with
      | nalu d ts l rc =>
        by_cases hcf : countsAsFrame s.codec d = true
        · exact hdue d ts l rc rfl hcf
        · simp only [Recur.next, if_neg hcf] at hf ⊢
          exact hfr hf
      | getSei a b c => simp only [Recur.next, hq1.2, if_true] at hf ⊢; exact hfr hf
      | prepend a b => simp only [Recur.next, hq1.2, if_true] at hf ⊢; exact hfr hf
      | set y =>
        cases y with
        | recurrence n =>
          simp only [Recur.next] at hf ⊢
          split at hf
          · next hx => rw [if_pos hx]; exact hfr hf
          · next hx => rw [if_neg hx]; exact hfr hf
        | _ => exact hfr hf
      | endOfStream _ _ => exact hfr hf
      | golden _ => exact hfr hf
      | reset => exact hfr hf

end SV
