import Verif.Proofs.Sign2
import Verif.Spec.Sign
/-! The SEI buffer as a queue: what every call of the signing API does to it, for every plugin that does not deliver more
signatures than it accepted hashes. -/
namespace SV
open Spec

/-- Contents of the SEI buffer: completed SEIs, then pending ones. -/
structure Queue where
  C : List Done
  P : List Gen

def Queue.slots (q : Queue) : List SeiSlot := q.C.map Done.slot ++ q.P.map Gen.slot

theorem Queue.slots_length (q : Queue) : q.slots.length = q.C.length + q.P.length := by simp [Queue.slots]

/-- An unused slot. -/
abbrev noSlot : SeiSlot := {}

/-- The buffer of `s` contains `q`. -/
structure QAbs (s : Signer) (q : Queue) : Prop where
  buf : s.buf = q.slots ++ List.replicate (maxSeis - q.slots.length) noSlot
  le : q.slots.length ≤ maxSeis
  idx : s.idx = q.slots.length
  completed : s.completed = q.C.length

theorem QAbs.same {s t : Signer} {q : Queue} (h : QAbs s q) (g : SameBuf s t) : QAbs t q :=
  ⟨g.buf.trans h.buf, h.le, g.idx.trans h.idx, g.completed.trans h.completed⟩

theorem QAbs.bufLen {s : Signer} {q : Queue} (h : QAbs s q) : s.buf.length = maxSeis := by
  have := h.le
  rw [h.buf, List.length_append, List.length_replicate]; omega

/-! ### Generation -/

/-- At most one SEI is generated and appended. -/
def GenStep (hs : Hashing) (s : Signer) (q : Queue) (s' : Signer) : Prop :=
  ∃ gs : List Gen, gs.length ≤ 1 ∧ (∀ g ∈ gs, g.Good hs) ∧ QAbs s' ⟨q.C, q.P ++ gs⟩ ∧ s'.got = s.got ∧
    s'.signed = if gs = [] then s.signed else gs.head?

theorem GenStep.refl {hs : Hashing} {s : Signer} {q : Queue} (h : QAbs s q) : GenStep hs s q s :=
  ⟨[], by simp, by simp, by simpa using h, rfl, rfl⟩

theorem GenStep.same {hs : Hashing} {s t u : Signer} {q : Queue} (h : GenStep hs s q t) (g : SameBuf t u) :
    GenStep hs s q u := by
  obtain ⟨gs, h1, h2, h3, h4, h5⟩ := h
  exact ⟨gs, h1, h2, h3.same g, g.got.trans h4, g.signed.trans h5⟩

theorem GenStep.ofSame {hs : Hashing} {s t : Signer} {q : Queue} (h : QAbs s q) (g : SameBuf s t) :
    GenStep hs s q t := (GenStep.refl h).same g

theorem GenStep.pre {hs : Hashing} {s t u : Signer} {q : Queue} (g : SameBuf s t) (h : GenStep hs t q u) :
    GenStep hs s q u := by
  obtain ⟨gs, h1, h2, h3, h4, h5⟩ := h
  exact ⟨gs, h1, h2, h3, h4.trans g.got, by rw [h5, g.signed]⟩

/-- The buffer is not touched by the generation, only the observed hash. -/
structure GenRes (hs : Hashing) (s s' : Signer) (p : SeiSlot) : Prop where
  lt : s.idx < maxSeis
  buf : s'.buf = s.buf
  idx : s'.idx = s.idx
  completed : s'.completed = s.completed
  got : s'.got = s.got
  gen : ∃ h, s'.signed = some ⟨s.opts, s.encNow, h⟩ ∧ p = Gen.slot ⟨s.opts, s.encNow, h⟩ ∧ Gen.Good hs ⟨s.opts, s.encNow, h⟩

theorem generateSei_buf (hs : Hashing) (s : Signer) (rc : Option Rc) :
    match generateSei hs s rc with
    | .ok s' p => GenRes hs s s' p
    | .err s' _ => SameBuf s s'
    | .ub u => OtherUb u := by
  by_cases hi : maxSeis ≤ s.idx
  · simp only [generateSei, hi, if_true]; exact SameBuf.refl s
  · have hlt : s.idx < maxSeis := by omega
    have hgood : ∀ s' p h, generateSei hs s rc = .ok s' p → s'.signed = some ⟨s.opts, s.encNow, h⟩ → Gen.Good hs ⟨s.opts, s.encNow, h⟩ := by
      intro s' p h hr hsig hf
      rcases generateSei_eq hs s rc hf with ⟨hx, _⟩ | ⟨_, ⟨u, _, hx⟩ | ⟨e, _, hx⟩ | ⟨e, _, hx⟩ | ⟨_, hx⟩⟩
      · omega
      · rw [hx] at hr; cases hr
      · rw [hx] at hr; cases hr
      · rw [hx] at hr; cases hr
      · rw [hx] at hr; cases hr; cases hsig; rfl
    generalize hr : generateSei hs s rc = r at *
    unfold generateSei at hr
    rw [if_neg hi] at hr
    dsimp only at hr
    split at hr
    · subst hr; exact .inl rfl
    · split at hr
      · next hp => subst hr; exact .inr (.inl ((onlyOverread_parse _ _ _ _).ub _ hp))
      · subst hr; exact ⟨rfl, rfl, rfl, rfl, rfl⟩
      · next f hp =>
        have hsame := hashAndAdd_same hs { s with e := (seiStart s.opts s.encNow).2 } f true true
        cases hh : hashAndAdd hs { s with e := (seiStart s.opts s.encNow).2 } f true true with
        | ub u => rw [hh] at hr hsame; subst hr; exact hsame
        | err t e =>
          rw [hh] at hr hsame; subst hr
          exact ⟨hsame.buf, hsame.idx, hsame.completed, hsame.got, hsame.signed⟩
        | ok t a =>
          rw [hh] at hr hsame
          cases rc with
          | some e => subst hr; exact ⟨hsame.buf, hsame.idx, hsame.completed, hsame.got, hsame.signed⟩
          | none =>
            subst hr
            exact ⟨hlt, hsame.buf, hsame.idx, hsame.completed, hsame.got, _, rfl, rfl, hgood _ _ _ rfl rfl⟩

/-- Generating a SEI and putting it into the buffer. -/
theorem generate_add (hs : Hashing) (s : Signer) (rc : Option Rc) (q : Queue) (h : QAbs s q) :
    ((generateSei hs s rc).andThen fun s p => addPayload s p).Sat (GenStep hs s q) ∧
    (∀ s', ((generateSei hs s rc).andThen fun s p => addPayload s p) = .ok s' () →
      ∃ g, g.Good hs ∧ QAbs s' ⟨q.C, q.P ++ [g]⟩ ∧ s'.got = s.got ∧ s'.signed = some g) := by
  have hg := generateSei_buf hs s rc
  cases hr : generateSei hs s rc with
  | ub u => rw [hr] at hg; exact ⟨hg, fun _ hx => by cases hx⟩
  | err t e => rw [hr] at hg; exact ⟨GenStep.ofSame h hg, fun _ hx => by cases hx⟩
  | ok t p =>
    rw [hr] at hg
    obtain ⟨x, hx, hp, hgood⟩ := hg.gen
    have hlt : t.idx < maxSeis := by rw [hg.idx]; exact hg.lt
    have hbl : t.buf.length = maxSeis := by rw [hg.buf]; exact h.bufLen
    have hadd : addPayload t p = .ok { t with buf := t.buf.set t.idx p, idx := t.idx + 1 } () := by
      unfold addPayload
      rw [if_neg (by omega), if_pos (by omega)]
    have hq : QAbs { t with buf := t.buf.set t.idx p, idx := t.idx + 1 } ⟨q.C, q.P ++ [⟨s.opts, s.encNow, x⟩]⟩ := by
      have hsl : (Queue.slots ⟨q.C, q.P ++ [⟨s.opts, s.encNow, x⟩]⟩) = q.slots ++ [p] := by simp [Queue.slots, hp]
      have hlt' : q.slots.length < maxSeis := by rw [← h.idx]; exact hg.lt
      refine ⟨?_, ?_, ?_, ?_⟩
      · show t.buf.set t.idx p = _
        rw [hsl, hg.buf, hg.idx, h.idx, h.buf, List.set_append_right _ _ (Nat.le_refl _), Nat.sub_self]
        have : maxSeis - q.slots.length = (maxSeis - (q.slots ++ [p]).length) + 1 := by
          rw [List.length_append]; simp only [List.length_singleton]; omega
        rw [this, List.replicate_succ, List.set_cons_zero, List.append_assoc]
        rfl
      · rw [hsl, List.length_append]; simp only [List.length_singleton]; omega
      · show t.idx + 1 = _
        rw [hsl, List.length_append, hg.idx, h.idx]; rfl
      · exact hg.completed.trans h.completed
    simp only [Res.andThen_ok, hadd]
    refine ⟨⟨[⟨s.opts, s.encNow, x⟩], by simp, ?_, hq, hg.got, ?_⟩, ?_⟩
    · intro g hgm; rw [List.mem_singleton.1 hgm]; exact hgood
    · simpa using hx
    · intro s' hs'; cases hs'
      exact ⟨_, hgood, hq, hg.got, hx⟩

theorem prepare_same (s : Signer) : (prepare s).Sat (SameBuf s) := by
  unfold prepare; dsimp only
  split
  · exact SameBuf.refl s
  · split <;> exact ⟨rfl, rfl, rfl, rfl, rfl⟩

theorem countFrame_same (s : Signer) (n : Nalu) (l : Bool) : (countFrame s n l).Sat (SameBuf s) := by
  unfold countFrame
  split
  · dsimp only
    generalize hs' : (if s.frameCount % s.recurrence = 0 then { s with e := { s.e with recurrent := true } } else s) = t
    have ht : SameBuf s t := by
      subst hs'; split
      · exact ⟨rfl, rfl, rfl, rfl, rfl⟩
      · exact SameBuf.refl s
    split
    · exact .inr (.inr rfl)
    · exact ⟨ht.buf, ht.idx, ht.completed, ht.got, ht.signed⟩
  · exact SameBuf.refl s

theorem final_no_ub (H : Bytes → Bytes) (c : Ctx) (u : Ub) : c.final H ≠ .ub u := by
  unfold Ctx.final; split <;> intro h <;> cases h

theorem endOfGop_step (hs : Hashing) (s : Signer) (ts : Option Int64) (rc : Option Rc) (q : Queue) (h : QAbs s q) :
    (endOfGop hs s ts rc).Sat (GenStep hs s q) := by
  unfold endOfGop
  split
  · dsimp only
    have ht : SameBuf s (stamp s ts) := by cases ts <;> exact ⟨rfl, rfl, rfl, rfl, rfl⟩
    generalize stamp s ts = t at ht ⊢
    split
    · exact GenStep.ofSame h ht
    · next u hu => exact absurd hu (final_no_ub _ _ _)
    · next c x hc =>
      have ht' : SameBuf s { t with primary := c, e := { t.e with gopHash := x } } :=
        ⟨ht.buf, ht.idx, ht.completed, ht.got, ht.signed⟩
      have hga := (generate_add hs { t with primary := c, e := { t.e with gopHash := x } } rc q (h.same ht')).1
      cases hg : generateSei hs { t with primary := c, e := { t.e with gopHash := x } } rc with
      | ub u => rw [hg] at hga; exact hga
      | err v e => rw [hg] at hga; exact GenStep.pre ht' hga
      | ok v p =>
        rw [hg] at hga
        simp only [Res.andThen_ok] at hga ⊢
        refine hga.andThen (fun w a _ hw => ?_) (fun w hw => GenStep.pre ht' hw)
        exact (GenStep.pre ht' hw).same ⟨rfl, rfl, rfl, rfl, rfl⟩
  · exact GenStep.ofSame h ⟨rfl, rfl, rfl, rfl, rfl⟩

theorem nextPart_same (s : Signer) (d : Bytes) (l : Bool) : (nextPart s d l).Sat (SameBuf s) := by
  unfold nextPart
  split
  · split
    · exact ⟨rfl, rfl, rfl, rfl, rfl⟩
    · exact SameBuf.refl s
    · next h => exact .inr (.inl ((onlyOverread_parse _ _ _ _).ub _ h))
  · split
    · exact ⟨rfl, rfl, rfl, rfl, rfl⟩
    · exact SameBuf.refl s
    · next u h =>
      refine .inr (.inl ?_)
      split at h
      · exact (onlyOverread_trim _).ub _ h
      · cases h

theorem addParsed_step (hs : Hashing) (s : Signer) (n : Nalu) (f l : Bool) (ts : Option Int64) (rc : Option Rc)
    (q : Queue) (h : QAbs s q) : (addParsed hs s n f l ts rc).Sat (GenStep hs s q) := by
  unfold addParsed
  refine (prepare_same s).andThen (fun t _ _ ht => ?_) (fun _ hx => GenStep.ofSame h hx)
  split
  · exact GenStep.ofSame h ht
  refine ((countFrame_same t n l).mono (fun _ hx => ht.trans hx)).andThen (fun u _ _ hu => ?_) (fun _ hx => GenStep.ofSame h hx)
  refine Res.Sat.andThen (P := GenStep hs s q) ?_ (fun v _ _ hv => ?_) (fun _ hx => hx)
  · split
    · exact (endOfGop_step hs u ts rc q (h.same hu)).mono (fun _ hx => GenStep.pre hu hx)
    · exact GenStep.ofSame h hu
  · refine ((hashAndAdd_same hs v n f l).mono (fun _ hx => hv.same hx)).andThen (fun w _ _ hw => ?_) (fun _ hx => hx)
    show GenStep hs s q _
    split
    · exact hw.same ⟨rfl, rfl, rfl, rfl, rfl⟩
    · exact hw

theorem addNalu_step (hs : Hashing) (s : Signer) (d : Bytes) (ts : Option Int64) (l : Bool) (rc : Option Rc)
    (q : Queue) (h : QAbs s q) : (addNalu hs s d ts l rc).Sat (GenStep hs s q) := by
  unfold addNalu
  split
  · exact GenStep.refl h
  · refine (nextPart_same s d l).andThen (fun t p _ ht => ?_) (fun _ hx => GenStep.ofSame h hx)
    exact (addParsed_step hs t p.1 p.2 l ts rc q (h.same ht)).mono (fun _ hx => GenStep.pre ht hx)

theorem goldenSei_step (hs : Hashing) (s : Signer) (rc : Option Rc) (q : Queue) (h : QAbs s q) :
    (goldenSei hs s rc).Sat (GenStep hs s q) := by
  unfold goldenSei
  dsimp only
  generalize hs' : ({ s with golden := true, e := { s.e with recurrent := true, frameLevel := true } } : Signer) = t
  have ht : SameBuf s t := by subst hs'; exact ⟨rfl, rfl, rfl, rfl, rfl⟩
  have key : ((prepare t).andThen fun s _ => (generateSei hs s rc).andThen fun s p => addPayload s p).Sat (GenStep hs s q) := by
    refine ((prepare_same t).mono (fun _ hx => ht.trans hx)).andThen (fun u _ _ hu => ?_) (fun _ hx => GenStep.ofSame h hx)
    exact (generate_add hs u rc q (h.same hu)).1.mono (fun _ hx => GenStep.pre hu hx)
  generalize ((prepare t).andThen fun s _ => (generateSei hs s rc).andThen fun s p => addPayload s p) = r at key
  cases r with
  | ok v a => exact GenStep.same (t := v) key ⟨rfl, rfl, rfl, rfl, rfl⟩
  | err v e => exact GenStep.same (t := v) key ⟨rfl, rfl, rfl, rfl, rfl⟩
  | ub u => exact key

/-! ### Completion -/

/-- What completing SEIs may change in a session. -/
def CompletedOnly (s s' : Signer) : Prop :=
  s' = { s with
    e := { s.e with signature := s'.e.signature, recurrent := s'.e.recurrent }
    buf := s'.buf, idx := s'.idx, completed := s'.completed, got := s'.got, avoidCheck := s'.avoidCheck }

/-- The oldest pending SEIs are completed. -/
def CompStep (s : Signer) (q : Queue) (s' : Signer) : Prop :=
  ∃ (ds : List Done) (P : List Gen), q.P = ds.map Done.g ++ P ∧ QAbs s' ⟨q.C ++ ds, P⟩ ∧
    s'.got = s.got ++ ds.map (·.e.signature) ∧ s'.signed = s.signed ∧ CompletedOnly s s' ∧
    ∀ d ∈ ds, d.o = s.opts ∧ d.e = { s.e with signature := d.e.signature, recurrent := d.e.recurrent } ∧
      d.e.signature.length ≤ s.e.maxSignature

theorem CompletedOnly.refl (s : Signer) : CompletedOnly s s := rfl

theorem CompletedOnly.trans {a b c : Signer} (h : CompletedOnly a b) (g : CompletedOnly b c) : CompletedOnly a c := by
  unfold CompletedOnly at *
  rw [h] at g
  exact g

theorem CompStep.refl {s : Signer} {q : Queue} (h : QAbs s q) : CompStep s q s :=
  ⟨[], q.P, by simp, by simpa using h, by simp, rfl, .refl s, by simp⟩

theorem CompStep.trans {a b c : Signer} {q : Queue} {ds : List Done} {P : List Gen}
    (h1 : q.P = ds.map Done.g ++ P)
    (h2 : b.got = a.got ++ ds.map (·.e.signature)) (h3 : b.signed = a.signed) (h4 : CompletedOnly a b)
    (h5 : ∀ d ∈ ds, d.o = a.opts ∧ d.e = { a.e with signature := d.e.signature, recurrent := d.e.recurrent } ∧
      d.e.signature.length ≤ a.e.maxSignature)
    (g : CompStep b ⟨q.C ++ ds, P⟩ c) : CompStep a q c := by
  obtain ⟨ds2, P2, g1, g2, g3, g4, g5, g6⟩ := g
  refine ⟨ds ++ ds2, P2, ?_, ?_, ?_, g4.trans h3, h4.trans g5, ?_⟩
  · rw [h1]
    have : P = ds2.map Done.g ++ P2 := g1
    rw [this, List.map_append, List.append_assoc]
  · rw [← List.append_assoc]; exact g2
  · rw [g3, h2, List.map_append, List.append_assoc]
  · intro d hd
    rcases List.mem_append.1 hd with hd | hd
    · exact h5 d hd
    · obtain ⟨k1, k2, k3⟩ := g6 d hd
      rw [h4] at k1 k2 k3
      exact ⟨k1, k2, k3⟩

theorem seiComplete_start (o : SeiOpts) (e : EncState) (a b : Bytes) (r : L2) :
    seiComplete o e ⟨a ++ b, r⟩ = a ++ seiComplete o e ⟨b, r⟩ := by
  simp [seiComplete, List.append_assoc]

theorem completeSei_step (s : Signer) (C : List Done) (g : Gen) (P : List Gen) (h : QAbs s ⟨C, g :: P⟩)
    (hsig : s.e.signature ≠ []) :
    completeSei s = .ub .overflow ∨ ∃ s', completeSei s = .ok s' () ∧ QAbs s' ⟨C ++ [⟨g, s.opts, s.e⟩], P⟩ ∧
      s'.got = s.got ∧ s'.signed = s.signed ∧ CompletedOnly s s' ∧ s'.e = { s.e with recurrent := false } := by
  have hsl : Queue.slots ⟨C, g :: P⟩ = C.map Done.slot ++ Gen.slot g :: P.map Gen.slot := by simp [Queue.slots]
  have hlen : (Queue.slots ⟨C, g :: P⟩).length = C.length + (P.length + 1) := by
    rw [Queue.slots_length]; rfl
  have hle := h.le
  have hidx := h.idx
  rw [hlen] at hle hidx
  have hc : s.completed = C.length := h.completed
  have hget : s.buf[s.completed]? = some g.slot := by
    rw [h.buf, hsl, hc, List.append_assoc, List.getElem?_append_right (by simp)]
    simp
  have hset : ∀ x, s.buf.set s.completed x =
      C.map Done.slot ++ x :: P.map Gen.slot ++ List.replicate (maxSeis - (C.length + (P.length + 1))) noSlot := by
    intro x
    rw [h.buf, hlen, hsl, hc, List.append_assoc, List.set_append_right _ _ (by simp), List.append_assoc]
    simp
  unfold completeSei
  rw [if_neg (by omega), if_neg (by omega), hget]
  have hne : s.e.signature.length ≠ 0 := by simpa using hsig
  simp only [hne, if_false, Gen.slot]
  by_cases hov : allocSize g.o.codec (payloadSizeRaw g.o (applyFallback g.o g.e)) <
      (seiComplete s.opts s.e ⟨startCode4 ++ g.doc, (seiStart g.o g.e).1.reg⟩).length
  · exact .inl (if_pos hov)
  · refine .inr ⟨_, if_neg hov, ⟨?_, ?_, ?_, ?_⟩, rfl, rfl, ?_, rfl⟩
    · show s.buf.set s.completed _ = _
      rw [hset]
      simp [Queue.slots, Done.slot, Done.bytes, Gen.doc, seiComplete_start]
      exact ⟨rfl, Nat.add_comm 4 _⟩
    · rw [Queue.slots_length]; simp; omega
    · rw [Queue.slots_length]; simp; omega
    · simp [hc]
    · rfl

theorem completeSeis_step (sigs : List SigAnswer) : ∀ (s : Signer) (q : Queue), QAbs s q →
    (oks sigs).length ≤ q.P.length → (∀ x ∈ oks sigs, x ≠ []) → (completeSeis s sigs).Sat (CompStep s q) := by
  induction sigs with
  | nil => intro s q h _ _; exact CompStep.refl h
  | cons a sigs ih =>
    intro s q h hn hx
    cases a with
    | error e => exact CompStep.refl h
    | ok sig =>
      obtain ⟨C, P⟩ := q
      cases P with
      | nil => simp [oks] at hn
      | cons g P =>
        unfold completeSeis
        split
        · exact .inl rfl
        · next hmax =>
          have hsig : sig ≠ [] := hx sig (by simp [oks])
          have h' : QAbs { s with e := { s.e with signature := sig }, got := s.got ++ [sig] } ⟨C, g :: P⟩ :=
            ⟨h.buf, h.le, h.idx, h.completed⟩
          rcases completeSei_step _ C g P h' hsig with hu | ⟨t, ht, hq, hgot, hsd, hco, he⟩
          · rw [hu]; exact .inl rfl
          · rw [ht]
            simp only [Res.andThen_ok]
            have hcs : CompletedOnly s t := by
              rw [CompletedOnly] at hco ⊢
              exact hco
            refine (ih t _ hq (by simp [oks] at hn ⊢; omega) (fun x hm => hx x (by simp [oks, hm]))).mono (fun v hv => ?_)
            refine CompStep.trans (q := ⟨C, g :: P⟩)
              (ds := [⟨g, s.opts, { s.e with signature := sig }⟩]) (P := P) rfl ?_ hsd hcs ?_ hv
            · exact hgot
            · intro d hd; rw [List.mem_singleton.1 hd]
              exact ⟨rfl, rfl, by show sig.length ≤ _; omega⟩

theorem completeSei_got (s t : Signer) (u : Unit) (h : completeSei s = .ok t u) : t.got = s.got := by
  unfold completeSei at h
  dsimp only at h
  repeat' split at h
  all_goals first | cases h; rfl | cases h

theorem completeSeis_got (sigs : List SigAnswer) : ∀ (s t : Signer) (u : Unit), completeSeis s sigs = .ok t u →
    t.got = s.got ++ oks sigs := by
  induction sigs with
  | nil => intro s t u h; cases h; simp [oks]
  | cons a sigs ih =>
    intro s t u h
    cases a with
    | error e => cases h
    | ok sig =>
      unfold completeSeis at h
      split at h
      · cases h
      · obtain ⟨v, _, h1, h2⟩ := Res.andThen_eq_ok h
        rw [ih v t u h2, completeSei_got _ _ _ h1]
        simp [oks]

theorem completeSeis_count (sigs : List SigAnswer) (s t : Signer) {u : Unit} (h : completeSeis s sigs = .ok t u)
    (hg : s.got = []) {ds : List Done} (hd : t.got = s.got ++ ds.map (·.e.signature)) : ds.length = (oks sigs).length := by
  rw [completeSeis_got sigs s t u h, hg] at hd
  have := congrArg List.length hd
  simpa using this.symm

/-! ### Handing out -/

theorem handOut_first (s : Signer) (d : Done) (C : List Done) (P : List Gen) (copy : Bool) (h : QAbs s ⟨d :: C, P⟩) :
    (copy = false ∧ handOut s 0 copy = .ok s none) ∨
    (copy = true ∧ ∃ s', handOut s 0 copy = .ok s' (some d.bytes) ∧ QAbs s' ⟨C, P⟩ ∧ s'.got = s.got ∧ s'.signed = s.signed ∧
      CompletedOnly s s' ∧ s'.e = s.e) := by
  have hlen : (Queue.slots ⟨d :: C, P⟩).length = (C.length + 1) + P.length := by rw [Queue.slots_length]; rfl
  have hidx := h.idx
  have hle := h.le
  have hbl := h.bufLen
  have hget : s.buf[0]? = some d.slot := by rw [h.buf]; rfl
  have hc : s.completed = C.length + 1 := h.completed
  unfold handOut
  rw [hget]
  dsimp only
  cases copy with
  | false => exact .inl ⟨rfl, rfl⟩
  | true =>
    refine .inr ⟨rfl, ?_⟩
    simp only [Bool.not_true, Bool.false_eq_true, if_false, Done.slot, Nat.lt_irrefl, List.take_length, shiftBuf]
    rw [if_neg (by omega), if_neg (by omega)]
    refine ⟨_, rfl, ⟨?_, ?_, ?_, ?_⟩, rfl, rfl, rfl, rfl⟩
    · show (s.buf.take s.idx).eraseIdx 0 ++ noSlot :: s.buf.drop s.idx = _
      rw [h.buf, hidx, List.take_left, List.drop_left]
      have : (Queue.slots ⟨d :: C, P⟩).eraseIdx 0 = Queue.slots ⟨C, P⟩ := rfl
      rw [this]
      congr 1
      rw [show maxSeis - (Queue.slots ⟨C, P⟩).length = (maxSeis - (Queue.slots ⟨d :: C, P⟩).length) + 1 by
        rw [hlen, Queue.slots_length]; dsimp only; omega]
      rfl
    · rw [Queue.slots_length]; dsimp only; omega
    · show s.idx - 1 = _
      rw [Queue.slots_length]; dsimp only; omega
    · show s.completed - 1 = _
      rw [hc]; rfl

theorem eraseIdx_mid {α : Type} (A : List α) (x : α) (B : List α) (n : Nat) (hn : n = A.length) :
    (A ++ x :: B).eraseIdx n = A ++ B := by
  subst hn
  rw [List.eraseIdx_append_of_length_le (Nat.le_refl _)]; simp

theorem handOut_last (s : Signer) (d : Done) (C : List Done) (P : List Gen) (copy : Bool) (h : QAbs s ⟨C ++ [d], P⟩) :
    (copy = false ∧ handOut s (s.completed - 1) copy = .ok s none) ∨
    (copy = true ∧ ∃ s', handOut s (s.completed - 1) copy = .ok s' (some d.bytes) ∧ QAbs s' ⟨C, P⟩ ∧ s'.got = s.got ∧
      s'.signed = s.signed ∧ CompletedOnly s s' ∧ s'.e = s.e) := by
  have hsl : Queue.slots ⟨C ++ [d], P⟩ = C.map Done.slot ++ d.slot :: P.map Gen.slot := by simp [Queue.slots]
  have hlen : (Queue.slots ⟨C ++ [d], P⟩).length = (C.length + 1) + P.length := by
    rw [Queue.slots_length]; simp
  have hidx := h.idx
  have hle := h.le
  have hbl := h.bufLen
  have hc : s.completed = C.length + 1 := by rw [h.completed]; simp
  have hget : s.buf[s.completed - 1]? = some d.slot := by
    rw [h.buf, hsl, hc, List.append_assoc, List.getElem?_append_right (by simp)]
    simp
  unfold handOut
  rw [hget]
  dsimp only
  cases copy with
  | false => exact .inl ⟨rfl, rfl⟩
  | true =>
    refine .inr ⟨rfl, ?_⟩
    simp only [Bool.not_true, Bool.false_eq_true, if_false, Done.slot, Nat.lt_irrefl, List.take_length, shiftBuf]
    rw [if_neg (by omega), if_neg (by omega)]
    refine ⟨_, rfl, ⟨?_, ?_, ?_, ?_⟩, rfl, rfl, rfl, rfl⟩
    · show (s.buf.take s.idx).eraseIdx (s.completed - 1) ++ noSlot :: s.buf.drop s.idx = _
      rw [h.buf, hidx, List.take_left, List.drop_left]
      have : (Queue.slots ⟨C ++ [d], P⟩).eraseIdx (s.completed - 1) = Queue.slots ⟨C, P⟩ := by
        rw [hsl, eraseIdx_mid _ _ _ _ (by rw [hc]; simp)]; rfl
      rw [this]
      congr 1
      rw [show maxSeis - (Queue.slots ⟨C, P⟩).length = (maxSeis - (Queue.slots ⟨C ++ [d], P⟩).length) + 1 by
        rw [hlen, Queue.slots_length]; dsimp only; omega]
      rfl
    · rw [Queue.slots_length]; dsimp only; omega
    · show s.idx - 1 = _
      rw [Queue.slots_length]; dsimp only; omega
    · show s.completed - 1 = _
      rw [hc]; rfl

theorem bytes_ne (d : Done) : d.bytes.length ≠ 0 := by
  unfold Done.bytes; simp

/-! ### Calls -/

/-- The call does not end the stream. -/
def NotEos : SCall → Prop
  | .endOfStream _ _ => False
  | _ => True

/-- The SEI was completed with the options and the state of the session `s`, apart from signature and recurrence. -/
def DoneAt (s : Signer) (d : Done) : Prop :=
  d.o = s.opts ∧ d.e = { s.e with signature := d.e.signature, recurrent := d.e.recurrent } ∧
    d.e.signature.length ≤ s.e.maxSignature

/-- What a call does to the queue of the session `s`. -/
def QStep (hs : Hashing) (s : Signer) (c : SCall) (q q' : Queue) (o : Obs) : Prop :=
  ∃ (gs : List Gen) (ds : List Done), gs.length ≤ 1 ∧ (∀ g ∈ gs, g.Good hs) ∧ o.signed = gs.head? ∧
    q.P ++ gs = ds.map Done.g ++ q'.P ∧ o.got = ds.map (·.e.signature) ∧ (NotEos c → ∀ d ∈ ds, DoneAt s d ∧ gs = []) ∧
    ((o.sei = none ∧ q'.C = q.C ++ ds) ∨
      ∃ d, o.sei = some d.bytes ∧ ((NotPrepend c ∧ q.C ++ ds = d :: q'.C) ∨ (¬ NotPrepend c ∧ q.C ++ ds = q'.C ++ [d])))

/-- The outcome of a call. -/
def QOut (hs : Hashing) (s0 : Signer) (c : SCall) (q : Queue) : Res Signer (Option Bytes) → Prop
  | .ok s b => ∃ q', QAbs s q' ∧ QStep hs s0 c q q' ⟨none, b, s.idx, s.signed, s.got⟩
  | .err s e => ∃ q', QAbs s q' ∧ QStep hs s0 c q q' ⟨some e, none, s.idx, s.signed, s.got⟩
  | .ub u => OtherUb u

theorem QStep.ofGen {hs : Hashing} {c : SCall} {s s' : Signer} {q : Queue} (hn : s.signed = none) (hg : s.got = [])
    (h : GenStep hs s q s') (rc : Option Rc) :
    ∃ q', QAbs s' q' ∧ QStep hs s c q q' ⟨rc, none, s'.idx, s'.signed, s'.got⟩ := by
  obtain ⟨gs, h1, h2, h3, h4, h5⟩ := h
  refine ⟨_, h3, gs, [], h1, h2, ?_, by simp, by simp [h4, hg], by simp, .inl ⟨rfl, by simp⟩⟩
  show s'.signed = _
  rw [h5]
  split
  · next h => rw [h, hn]; rfl
  · rfl

theorem QOut.ofGen {hs : Hashing} {c : SCall} {s : Signer} {q : Queue} (hn : s.signed = none) (hg : s.got = [])
    {r : Res Signer Unit} (h : r.Sat (GenStep hs s q)) : QOut hs s c q (plain r) := by
  cases r with
  | ok t a => exact QStep.ofGen hn hg h none
  | err t e => exact QStep.ofGen hn hg h (some e)
  | ub u => exact h

theorem QStep.ofComp {hs : Hashing} {c : SCall} {s s' : Signer} {q : Queue} (hn : s.signed = none) (hg : s.got = [])
    (h : CompStep s q s') (rc : Option Rc) :
    ∃ q', QAbs s' q' ∧ QStep hs s c q q' ⟨rc, none, s'.idx, s'.signed, s'.got⟩ := by
  obtain ⟨ds, P, h1, h2, h3, h4, _, h6⟩ := h
  exact ⟨_, h2, [], ds, by simp, by simp, by rw [show _ = s.signed from h4, hn]; rfl, by simpa using h1,
    by rw [show _ = s.got ++ _ from h3, hg]; rfl, fun _ d hd => ⟨h6 d hd, rfl⟩, .inl ⟨rfl, rfl⟩⟩

theorem QStep.ofHandOut {hs : Hashing} {c : SCall} {s t t' : Signer} {q : Queue} {ds : List Done} {P : List Gen}
    {C : List Done} {d : Done} (hn : s.signed = none) (hg : s.got = [])
    (h1 : q.P = ds.map Done.g ++ P) (h3 : t.got = s.got ++ ds.map (·.e.signature)) (h4 : t.signed = s.signed)
    (h6' : ∀ d ∈ ds, DoneAt s d) (h5 : QAbs t' ⟨C, P⟩) (h6 : t'.got = t.got) (h7 : t'.signed = t.signed)
    (h8 : (NotPrepend c ∧ q.C ++ ds = d :: C) ∨ (¬ NotPrepend c ∧ q.C ++ ds = C ++ [d])) :
    ∃ q', QAbs t' q' ∧ QStep hs s c q q' ⟨none, some d.bytes, t'.idx, t'.signed, t'.got⟩ :=
  ⟨_, h5, [], ds, by simp, by simp, by rw [show _ = t.signed from h7, h4, hn]; rfl, by simpa using h1,
    by rw [show _ = t.got from h6, h3, hg]; rfl, fun _ d hd => ⟨h6' d hd, rfl⟩, .inr ⟨d, rfl, h8⟩⟩

/-- Handing out the first SEI after completing some. -/
theorem QOut.first {hs : Hashing} {c : SCall} (hc : NotPrepend c) {s t : Signer} {q : Queue} (hn : s.signed = none)
    (hg : s.got = []) (h : CompStep s q t) (hpos : ¬ t.completed < 1) (copy : Bool) :
    QOut hs s c q (handOut t 0 copy) := by
  obtain ⟨ds, P, h1, h2, h3, h4, h5, h6⟩ := id h
  cases hC : q.C ++ ds with
  | nil => rw [hC] at h2; have := h2.completed; simp at this; omega
  | cons d C =>
    rw [hC] at h2
    rcases handOut_first t d C P copy h2 with ⟨_, hx⟩ | ⟨_, t', hx, k1, k2, k3, _, _⟩
    · rw [hx]; exact QStep.ofComp hn hg h none
    · rw [hx]; exact QStep.ofHandOut hn hg h1 h3 h4 h6 k1 k2 k3 (.inl ⟨hc, hC⟩)

/-- Handing out the last completed SEI after completing some. -/
theorem QOut.last {hs : Hashing} {c : SCall} (hc : ¬ NotPrepend c) {s t : Signer} {q : Queue} (hn : s.signed = none)
    (hg : s.got = []) (h : CompStep s q t) (hpos : ¬ t.completed < 1) (copy : Bool) :
    QOut hs s c q (handOut t (t.completed - 1) copy) := by
  obtain ⟨ds, P, h1, h2, h3, h4, h5, h6⟩ := id h
  rcases List.eq_nil_or_concat (q.C ++ ds) with hC | ⟨C, d, hC⟩
  · rw [hC] at h2; have := h2.completed; simp at this; omega
  · rw [List.concat_eq_append] at hC
    rw [hC] at h2
    rcases handOut_last t d C P copy h2 with ⟨_, hx⟩ | ⟨_, t', hx, k1, k2, k3, _, _⟩
    · rw [hx]; exact QStep.ofComp hn hg h none
    · rw [hx]; exact QStep.ofHandOut hn hg h1 h3 h4 h6 k1 k2 k3 (.inr ⟨hc, hC⟩)

theorem getSei_q (hs : Hashing) (s : Signer) (copy : Bool) (peek : Option Bytes) (sigs : List SigAnswer) (q : Queue)
    (h : QAbs s q) (hn : s.signed = none) (hg : s.got = []) (h1 : (oks sigs).length ≤ q.P.length)
    (h2 : ∀ x ∈ oks sigs, x ≠ []) : QOut hs s (.getSei copy peek sigs) q (getSei s copy peek sigs) := by
  have hcs := completeSeis_step sigs s q h h1 h2
  unfold getSei
  cases hr : completeSeis s sigs with
  | ub u => rw [hr] at hcs; exact hcs
  | err t e => rw [hr] at hcs; exact QStep.ofComp hn hg hcs (some e)
  | ok t a =>
    rw [hr] at hcs
    have hcs' : CompStep s q t := hcs
    simp only [Res.andThen_ok]
    split
    · exact QStep.ofComp hn hg hcs' none
    · next hpos =>
      split
      · split
        · next hp => exact .inr (.inl ((onlyOverread_parse _ _ _ _).ub _ hp))
        · exact QStep.ofComp hn hg hcs' (some _)
        · split
          · exact QOut.first (c := .getSei copy _ sigs) trivial hn hg hcs' hpos copy
          · obtain ⟨ds, P, k1, k2, k3, k4, k5, k6⟩ := hcs'
            exact QStep.ofComp (s' := { t with avoidCheck := true }) hn hg ⟨ds, P, k1, ⟨k2.buf, k2.le, k2.idx, k2.completed⟩, k3, k4,
              CompletedOnly.trans k5 rfl, k6⟩ none
      · exact QOut.first (c := .getSei copy _ sigs) trivial hn hg hcs' hpos copy

theorem QOut.intoRoom {hs : Hashing} {s : Signer} {c : SCall} {q : Queue} {r : Res Signer (Option Bytes)} (n : Nat)
    (h : QOut hs s c q r) : QOut hs s c q (intoRoom n r) := by
  unfold SV.intoRoom
  split
  · split
    · exact .inl rfl
    · exact h
  · exact h

theorem getPrepend_q (hs : Hashing) (s : Signer) (a b : List SigAnswer) (q : Queue)
    (h : QAbs s q) (hn : s.signed = none) (hg : s.got = []) (h1 : (oks a ++ oks b).length ≤ q.P.length)
    (h2 : ∀ x ∈ oks a ++ oks b, x ≠ []) : QOut hs s (.prepend a b) q (getPrepend s a b) := by
  have hla : (oks a).length ≤ q.P.length := by rw [List.length_append] at h1; omega
  have hcs := completeSeis_step a s q h hla (fun x hx => h2 x (by simp [hx]))
  unfold getPrepend
  cases hr : completeSeis s a with
  | ub u => rw [hr] at hcs; exact hcs
  | err t e => rw [hr] at hcs; exact QStep.ofComp hn hg hcs (some e)
  | ok t x =>
    rw [hr] at hcs
    have hcs' : CompStep s q t := hcs
    simp only [Res.andThen_ok]
    split
    · exact QStep.ofComp hn hg hcs' none
    · next hpos =>
      obtain ⟨ds, P, k1, k2, k3, k4, k5, k6⟩ := id hcs'
      have hget : ∃ d : Done, t.buf[t.completed - 1]? = some d.slot := by
        rcases List.eq_nil_or_concat (q.C ++ ds) with hC | ⟨C, d, hC⟩
        · rw [hC] at k2; have := k2.completed; simp at this; omega
        · rw [List.concat_eq_append] at hC
          rw [hC] at k2
          refine ⟨d, ?_⟩
          rw [k2.buf, k2.completed, Queue.slots]
          simp
      obtain ⟨d, hd⟩ := hget
      rw [hd]
      dsimp only
      rw [if_neg (show ¬ d.slot.size = 0 from bytes_ne d)]
      refine QOut.intoRoom _ ?_
      unfold getLatest
      have hlen : (oks b).length ≤ P.length := by
        have := congrArg List.length k1
        rw [List.length_append, List.length_map] at this
        have hds : ds.length = (oks a).length := completeSeis_count a s t hr hg k3
        rw [List.length_append] at h1; omega
      have hcb := completeSeis_step b t _ k2 hlen (fun x hx => h2 x (by simp [hx]))
      cases hr2 : completeSeis t b with
      | ub u => rw [hr2] at hcb; exact hcb
      | err v e => rw [hr2] at hcb; exact QStep.ofComp hn hg (CompStep.trans k1 k3 k4 k5 k6 hcb) (some e)
      | ok v y =>
        rw [hr2] at hcb
        have hv : CompStep s q v := CompStep.trans k1 k3 k4 k5 k6 hcb
        simp only [Res.andThen_ok]
        split
        · exact QStep.ofComp hn hg hv none
        · next hpos2 => exact QOut.last (c := .prepend a b) (fun hx => hx) hn hg hv hpos2 true

theorem endOfStream_q (hs : Hashing) (s : Signer) (rc : Option Rc) (sigs : List SigAnswer) (q : Queue)
    (h : QAbs s q) (hn : s.signed = none) (hg : s.got = [])
    (h1 : (oks sigs).length ≤ q.P.length + extra (.endOfStream rc sigs))
    (h2 : ∀ x ∈ oks sigs, x ≠ []) : QOut hs s (.endOfStream rc sigs) q (plain (endOfStream hs s rc sigs)) := by
  have hp := prepare_same s
  unfold endOfStream
  cases hr : prepare s with
  | ub u => rw [hr] at hp; exact hp
  | err t e => rw [hr] at hp; exact QStep.ofGen hn hg (GenStep.ofSame h hp) (some e)
  | ok t x =>
    rw [hr] at hp
    have hp' : SameBuf s t := hp
    have hga := generate_add hs t rc q (h.same hp')
    simp only [Res.andThen_ok]
    have hassoc : ((generateSei hs t rc).andThen fun s p => (addPayload s p).andThen fun s _ => completeSeis s sigs) =
        ((generateSei hs t rc).andThen fun s p => addPayload s p).andThen fun s _ => completeSeis s sigs := by
      cases generateSei hs t rc <;> rfl
    rw [hassoc]
    cases hr2 : ((generateSei hs t rc).andThen fun s p => addPayload s p) with
    | ub u => rw [hr2] at hga; exact hga.1
    | err v e => rw [hr2] at hga; exact QStep.ofGen hn hg (GenStep.pre hp' hga.1) (some e)
    | ok v y =>
      obtain ⟨g, k1, k2, k3, k4⟩ := hga.2 v hr2
      have hrc : rc = none := by
        cases hg1 : generateSei hs t rc with
        | ub u => rw [hg1] at hr2; cases hr2
        | err v e => rw [hg1] at hr2; cases hr2
        | ok w p =>
          unfold generateSei at hg1
          split at hg1
          · cases hg1
          · dsimp only at hg1
            split at hg1
            · cases hg1
            · split at hg1
              · cases hg1
              · cases hg1
              · obtain ⟨_, _, _, h5⟩ := Res.andThen_eq_ok hg1
                cases rc with
                | none => rfl
                | some e => cases h5
      subst hrc
      simp only [Res.andThen_ok]
      have hcb := completeSeis_step sigs v _ k2 (by simpa [extra] using h1) h2
      have key : ∀ w rc', CompStep v ⟨q.C, q.P ++ [g]⟩ w →
          ∃ q', QAbs w q' ∧ QStep hs s (.endOfStream none sigs) q q' ⟨rc', none, w.idx, w.signed, w.got⟩ := by
        intro w rc' hw
        obtain ⟨ds, P, m1, m2, m3, m4, _, _⟩ := hw
        refine ⟨_, m2, [g], ds, by simp, by simpa using k1, ?_, m1, ?_, fun hx => hx.elim, .inl ⟨rfl, rfl⟩⟩
        · rw [show _ = v.signed from m4, k4]; rfl
        · rw [show _ = v.got ++ _ from m3, k3, hp'.got, hg]; rfl
      cases hr3 : completeSeis v sigs with
      | ub u => rw [hr3] at hcb; exact hcb
      | err w e => rw [hr3] at hcb; exact key w (some e) hcb
      | ok w y => rw [hr3] at hcb; exact key w none hcb

theorem applySetting_same (hs : Hashing) (s : Signer) (x : Setting) : (applySetting hs s x).Sat (SameBuf s) := by
  unfold applySetting
  repeat' split
  all_goals first
    | exact ⟨rfl, rfl, rfl, rfl, rfl⟩
    | (dsimp only; split <;> exact ⟨rfl, rfl, rfl, rfl, rfl⟩)

/-- **Every call**: with a plugin that does not deliver too many signatures, undefined behaviour has nothing to do with
the SEI buffer, and otherwise the buffer behaves like a queue. -/
theorem signStep_q (hs : Hashing) (s : Signer) (c : SCall) (q : Queue) (h : QAbs s q)
    (h1 : (offered c).length ≤ q.P.length + extra c) (h2 : ∀ x ∈ offered c, x ≠ []) :
    match signStep hs s c with
    | .ok (s', o) => ∃ q', QAbs s' q' ∧ QStep hs s c q q' o ∧ o.pending = q'.C.length + q'.P.length
    | .err _ => False
    | .ub u => OtherUb u := by
  have h' : QAbs { s with signed := none, got := [] } q := ⟨h.buf, h.le, h.idx, h.completed⟩
  have key : QOut hs { s with signed := none, got := [] } c q (signCall hs { s with signed := none, got := [] } c) := by
    cases c with
    | nalu d ts l rc => exact QOut.ofGen rfl rfl (addNalu_step hs _ d ts l rc q h')
    | getSei cp pk sigs => exact getSei_q hs _ cp pk sigs q h' rfl rfl h1 h2
    | prepend a b => exact getPrepend_q hs _ a b q h' rfl rfl h1 h2
    | endOfStream rc sigs => exact endOfStream_q hs _ rc sigs q h' rfl rfl h1 h2
    | golden rc => exact QOut.ofGen rfl rfl (goldenSei_step hs _ rc q h')
    | set x => exact QOut.ofGen rfl rfl ((applySetting_same hs _ x).mono (fun _ hx => GenStep.ofSame h' hx))
    | reset =>
      exact QStep.ofGen (s := { s with signed := none, got := [] })
        (s' := resetSigner { s with signed := none, got := [] }) rfl rfl
        (GenStep.ofSame h' ⟨rfl, rfl, rfl, rfl, rfl⟩) none
  unfold signStep
  cases hr : signCall hs { s with signed := none, got := [] } c with
  | ub u => rw [hr] at key; exact key
  | ok t b =>
    rw [hr] at key
    obtain ⟨q', k1, k2⟩ := key
    exact ⟨q', k1, k2, by rw [← Queue.slots_length]; exact k1.idx⟩
  | err t e =>
    rw [hr] at key
    obtain ⟨q', k1, k2⟩ := key
    exact ⟨q', k1, k2, by rw [← Queue.slots_length]; exact k1.idx⟩

end SV
