import Verif.Spec.Unsigned
import Verif.Props.NaluValid
import Verif.Proofs.AuthHang
import Verif.Proofs.AuthCall
import Verif.Props.AuthDemo
/-! Streams without Signed Video SEIs (C45). -/
namespace SV
open Spec

theorem parseSei_unsigned (c : Codec) (n r : Nalu) (m : Bytes) (last : UInt8) (hg : r.gopSei = false)
    (hn : n.tlvSize = 0 ∧ n.golden = false) (h : parseSei c true n m last = .ok r) :
    r.tlvSize = 0 ∧ r.golden = false := by
  simp only [parseSei] at h
  obtain ⟨⟨ud, m1⟩, _, h⟩ := Out.bind_eq_ok h
  dsimp only at h
  split at h
  · obtain ⟨⟨ps, k⟩, _, h⟩ := Out.bind_eq_ok h
    obtain ⟨⟨u, m2⟩, _, h⟩ := Out.bind_eq_ok h
    dsimp only at h
    have := (removeEpb_ntype _ r m _ h).2.2.1
    rw [hg] at this
    unfold removeEpb at h
    rw [if_pos (by dsimp only at this ⊢; rw [← this]; simp)] at h
    cases h; exact hn
  · cases h; exact hn

theorem parseSei_uuid (c : Codec) (n r : Nalu) (m : Bytes) (last : UInt8) (hg : r.gopSei = true)
    (h : parseSei c true n m last = .ok r) : uuid <:+: m := by
  simp only [parseSei] at h
  obtain ⟨⟨ud, m1⟩, _, h⟩ := Out.bind_eq_ok h
  dsimp only at h
  split at h
  · obtain ⟨⟨ps, k⟩, _, h⟩ := Out.bind_eq_ok h
    obtain ⟨⟨u, m2⟩, hu, h⟩ := Out.bind_eq_ok h
    dsimp only at h
    have h1 := (removeEpb_ntype _ r m _ h).2.2.1
    rw [hg] at h1
    have h2 : u = uuid := eq_of_beq h1.symm
    unfold rdN at hu
    split at hu
    · cases hu
      rw [← h2]
      exact (List.take_prefix _ _).isInfix.trans (List.drop_suffix _ _).isInfix
    · cases hu
  · cases h; cases hg

/-- What a NAL unit without UUID looks like after parsing. -/
theorem parseNalu_unsigned {d : Bytes} {c : Codec} {n : Nalu} (hne : d ≠ []) (h : parseNalu d c true true = .ok n) :
    (n.gopSei = false → n.tlvSize = 0 ∧ n.golden = false) ∧ (n.gopSei = true → uuid <:+: d) := by
  match d, h with
  | [], _ => exact absurd rfl hne
  | [_], h => simp [parseNalu] at h
  | [_, _], h => simp [parseNalu] at h
  | [_, _, _], h => simp [parseNalu] at h
  | a :: b :: x :: y :: rest, h =>
    simp only [parseNalu] at h
    obtain ⟨⟨t, v, prim⟩, _, h⟩ := Out.bind_eq_ok h
    obtain ⟨sz, _, h⟩ := Out.bind_eq_ok h
    dsimp only at h
    split at h
    · exact ⟨fun hg => parseSei_unsigned c _ n _ _ hg ⟨rfl, rfl⟩ h, fun hg =>
        (parseSei_uuid c _ n _ _ hg h).trans (List.drop_suffix _ _).isInfix⟩
    · cases h; exact ⟨fun _ => ⟨rfl, rfl⟩, fun hg => by cases hg⟩

/-- A list item of a session without SEIs. -/
structure Quiet (i : Item) : Prop where
  nalu : ∃ n, i.nalu = some n ∧ n.gopSei = false ∧ n.tlvSize = 0 ∧ n.golden = false
  unused : i.used = false
  status : i.status = .P ∨ i.status = .U ∨ i.status = .ignored

/-- The NAL unit of an item is the first one of a GOP and pending. -/
def startPending (i : Item) : Bool :=
  decide (i.status = .P) && (match i.nalu with | some n => n.isHashable && n.firstInGop | none => false)

/-- A session that has received no SEI. -/
structure Unsigned (env : AuthEnv) (c : Codec) (ds : List Bytes) (s : Validator) : Prop where
  codec : s.codec = c
  signing : s.flags.signing = false
  legacy : s.legacy = false
  unknown : s.d.hashAlgoKnown = false
  quiet : ∀ x ∈ s.list, Quiet x.2
  pend : numPending s.list = (ds.filter fun d => decide (LegalHeader c (headerOf d).1 (headerOf d).2 ∧
    Protected c (headerOf d).1 (headerOf d).2)).length
  starts : (s.list.filter fun x => startPending x.2).length = (ds.filter fun d => match parseNalu d c true true with
    | .ok n => decide (n.valid = 1) && n.isHashable && n.firstInGop
    | _ => false).length
  this : s.rep.thisVersion = []
  other : s.rep.versionOnSigningSide = []
  acc : s.rep.acc.auth = .notSigned
  received : s.rep.acc.received = ds.length
  validated : s.rep.acc.validated = 0
  latest : s.rep.latest.auth = .notSigned

namespace Validator

theorem nextSei_quiet {l : NList} (h : ∀ x ∈ l, Quiet x.2) : nextSei l = none := by
  unfold nextSei
  refine List.find?_eq_none.2 fun x hx => ?_
  obtain ⟨n, hn, hg, _⟩ := (h x hx).nalu
  rw [hn]; dsimp only; rw [hg]; simp

theorem scan_quiet {l : NList} (h : ∀ x ∈ l, Quiet x.2) (c : Scan) (hc : c.hasSei = false ∧ c.after = false ∧ c.last.getD false = false)
    (hf : c.found = decide (c.ends ≥ 2)) : (scan false l c).hasSei = false ∧
      (scan false l c).found = decide (c.ends + (l.filter fun x => startPending x.2).length ≥ 2) := by
  induction l generalizing c with
  | nil => exact ⟨hc.1, by simpa [scan] using hf⟩
  | cons x r ih =>
    unfold scan
    split
    · rename_i hfound
      refine ⟨hc.1, ?_⟩
      rw [hfound] at hf ⊢
      have := of_decide_eq_true hf.symm
      rw [eq_comm, decide_eq_true_iff]; omega
    · rename_i hfound
      obtain ⟨n, hn, hg, _⟩ := (h x List.mem_cons_self).nalu
      have key : (scanStep false c x.2).hasSei = false ∧ (scanStep false c x.2).after = false ∧
          (scanStep false c x.2).last.getD false = false ∧
          (scanStep false c x.2).ends = c.ends + (if startPending x.2 then 1 else 0) ∧
          (scanStep false c x.2).found = (c.found || decide ((scanStep false c x.2).ends ≥ 2) || (scanStep false c x.2).after) := by
        unfold scanStep startPending
        rw [hn]
        dsimp only
        have hc' : (if n.valid ≤ 0 ∨ n.isHashable = false then c else { c with hasSei := c.hasSei || n.gopSei }) = c := by
          split
          · rfl
          · rw [hg, Bool.or_false]
        simp only [hc']
        obtain ⟨c1, c2, c3⟩ := hc
        by_cases hp : x.2.status = .P ∧ n.isHashable = true
        · rw [if_pos hp]
          simp [c1, c2, c3, hp.1, hp.2, hg]
        · rw [if_neg hp]
          refine ⟨c1, c2, c3, ?_, by simp⟩
          rw [if_neg]; rfl
          intro hh; simp only [Bool.and_eq_true, decide_eq_true_eq] at hh
          exact hp ⟨hh.1, hh.2.1⟩
      obtain ⟨k1, k2, k3, k4, k5⟩ := key
      have hnf : c.found = false := by simpa using hfound
      rw [hnf, k2, Bool.false_or, Bool.or_false] at k5
      obtain ⟨r1, r2⟩ := ih (fun y hy => h y (List.mem_cons_of_mem _ hy)) _ ⟨k1, k2, k3⟩ k5
      refine ⟨r1, ?_⟩
      rw [r2, k4, List.filter_cons]
      congr 1
      by_cases hs : startPending x.2 = true
      · rw [if_pos hs, if_pos hs, List.length_cons]; simp; omega
      · rw [if_neg hs, if_neg hs]; simp

/-- A round without signing only reports. -/
theorem rounds_quiet (env : AuthEnv) (k : Nat) {s : Validator} (hs : s.flags.signing = false) (h : ∀ x ∈ s.list, Quiet x.2) :
    ∃ t, s.rounds env (k + 1) = .ok t () ∧ t.list = s.list ∧ t.brk = s.brk ∧ t.codec = s.codec ∧ t.d = s.d ∧ t.legacy = s.legacy ∧
      t.flags.signing = false ∧ t.rep.acc = s.rep.acc ∧ t.rep.thisVersion = s.rep.thisVersion ∧
      t.rep.versionOnSigningSide = s.rep.versionOnSigningSide ∧
      (if 2 ≤ (s.list.filter fun x => startPending x.2).length then t.flags.hasAuth = true ∧ t.rep.latest.auth = .notSigned ∧
        t.rep.latest.pending = numPending s.list else t.flags.hasAuth = s.flags.hasAuth ∧ t.rep.latest = s.rep.latest) := by
  have hsc := scan_quiet h {} ⟨rfl, rfl, rfl⟩ rfl
  unfold rounds
  have hp : s.hasPending.2 = decide (2 ≤ (s.list.filter fun x => startPending x.2).length) := by
    show (scan s.flags.signing s.list {}).found = _
    rw [hs, hsc.2]; simp
  rw [hp]
  by_cases h2 : 2 ≤ (s.list.filter fun x => startPending x.2).length
  · rw [decide_eq_true h2, if_pos rfl]
    have hg : s.hasPending.1.gop.hasSei = false := by
      show (scan s.flags.signing s.list {}).hasSei = false
      rw [hs]; exact hsc.1
    obtain ⟨b, hb, b1, b0, b2, b3, b4, b5, b6, b7, b8, b9⟩ : ∃ b, s.hasPending.1.begin = b ∧ b.list = s.list ∧ b.brk = s.brk ∧ b.flags = s.flags ∧
        b.codec = s.codec ∧ b.d = s.d ∧ b.legacy = s.legacy ∧ b.rep.acc = s.rep.acc ∧ b.rep.thisVersion = s.rep.thisVersion ∧
        b.rep.versionOnSigningSide = s.rep.versionOnSigningSide ∧ b.gop.hasSei = false := by
      unfold begin
      split
      · exact ⟨_, rfl, rfl, rfl, rfl, rfl, rfl, rfl, rfl, rfl, rfl, hg⟩
      · exact ⟨_, rfl, rfl, rfl, rfl, rfl, rfl, rfl, rfl, rfl, rfl, hg⟩
    have hprep : b.prepare env = .ok b () := by
      unfold prepare
      rw [b1, nextSei_quiet h]
      dsimp only
      rw [Res.andThen_ok, b2, hs, b9]
      rfl
    unfold round
    rw [hb, hprep, Res.andThen_ok, updateLinkLoop_unused b b.list (by rw [b1]; exact fun x hx => (h x hx).unused)]
    dsimp only
    unfold conduct
    rw [b2, hs, if_neg (by simp), Res.andThen_ok, Res.andThen_ok, if_neg (by simp [finish, hs])]
    refine ⟨_, rfl, b1, b0, b3, b4, b5, ?_, b6, b7, b8, ?_⟩
    · show s.flags.signing = false
      exact hs
    · rw [if_pos h2]
      refine ⟨rfl, rfl, ?_⟩
      show (numPending b.list : Int) = _
      rw [b1]
  · rw [decide_eq_false h2, if_neg (by simp)]
    exact ⟨_, rfl, rfl, rfl, rfl, rfl, rfl, hs, rfl, rfl, rfl, by rw [if_neg h2]; exact ⟨rfl, rfl⟩⟩

theorem Quiet.set {l : NList} {a : Nat} {f : Item → Item} (h : ∀ x ∈ l, Quiet x.2) (hf : ∀ i, Quiet i → Quiet (f i)) :
    ∀ x ∈ l.set a f, Quiet x.2 := by
  intro x hx
  obtain ⟨y, hy, rfl⟩ := List.mem_map.1 hx
  split
  · exact hf _ (h y hy)
  · exact h y hy

theorem numPending_set {l : NList} {a : Nat} {f : Item → Item} (hf : ∀ i, (f i).status = i.status) :
    numPending (l.set a f) = numPending l := by
  unfold numPending NList.set
  rw [List.filter_map, List.length_map]
  congr 1
  refine List.filter_congr fun x _ => ?_
  show decide ((if x.1 = a then (x.1, f x.2) else x).2.status = .P) = _
  split
  · dsimp only; rw [hf]
  · rfl

theorem starts_set {l : NList} {a : Nat} {f : Item → Item} (hf : ∀ x ∈ l, x.1 = a → startPending (f x.2) = startPending x.2) :
    ((l.set a f).filter fun x => startPending x.2).length = (l.filter fun x => startPending x.2).length := by
  unfold NList.set
  rw [List.filter_map, List.length_map]
  congr 1
  refine List.filter_congr fun x hx => ?_
  show startPending (if x.1 = a then (x.1, f x.2) else x).2 = _
  split
  · exact hf x hx ‹_›
  · rfl

theorem set_same {l : NList} {a : Nat} {f : Item → Item} (h : ∀ x ∈ l, x.1 = a → f x.2 = x.2) : l.set a f = l := by
  unfold NList.set
  conv => rhs; rw [← List.map_id l]
  refine List.map_congr_left fun x hx => ?_
  split
  · rw [h x hx ‹_›]; rfl
  · rfl

/-- Copying the last item of a session without SEIs. -/
theorem copyLast_quiet {s : Validator} (w : WFs s) (hu : s.d.hashAlgoKnown = false) (h : ∀ x ∈ s.list, Quiet x.2) (hne : s.list ≠ []) :
    ∃ l, s.copyLast = .ok { s with list := l } none ∧ (∀ x ∈ l, Quiet x.2) ∧ numPending l = numPending s.list ∧
      (l.filter fun x => startPending x.2).length = (s.list.filter fun x => startPending x.2).length ∧
      validationStr l = validationStr s.list := by
  unfold copyLast
  cases hf : s.list.reverse.find? fun x => x.2.nalu.isSome with
  | none =>
    exfalso
    obtain ⟨x, r, e⟩ := List.exists_cons_of_ne_nil hne
    have hx : x ∈ s.list := by rw [e]; exact List.mem_cons_self
    have := List.find?_eq_none.1 hf x (List.mem_reverse.2 hx)
    obtain ⟨n, hn, _⟩ := (h x hx).nalu
    rw [hn] at this; simp at this
  | some x =>
    have hx : x ∈ s.list := List.mem_reverse.1 (List.mem_of_find?_eq_some hf)
    obtain ⟨n, hn, hg, ht, hgo⟩ := (h x hx).nalu
    dsimp only
    rw [hn]
    dsimp only
    have hc : copyNalu s.d.hashAlgoKnown n = .ok (some { n with
        hashable := if !s.d.hashAlgoKnown && n.isHashable then n.hashable else []
        tlvMem := n.tlvMem.take n.tlvSize, tlvStart := [] }) := by
      unfold copyNalu
      rw [if_neg (by rw [ht]; decide), if_neg (by rw [ht]; omega), if_neg (by rw [hg]; simp)]
    rw [hc]
    refine ⟨_, rfl, Quiet.set h fun i hi => ?_, numPending_set fun i => rfl, starts_set fun y hy e => ?_, ?_⟩
    · exact ⟨⟨_, rfl, hg, ht, hgo⟩, hi.unused, hi.status⟩
    · have := w.unique hy hx e
      subst this
      unfold startPending
      rw [hn]
    · unfold validationStr NList.set
      rw [List.map_map]
      refine List.map_congr_left fun y _ => ?_
      show (if y.1 = x.1 then (y.1, _) else y).2.status.char = _
      split <;> rfl

theorem report_eq {s : Validator} {r : Report} {l : NList} (h : s.flags.hasAuth = true) (e : updateReport s.rep s.list = .ok (r, l)) :
    s.report = .ok { s with
      rep := { (getReport r l.length).1 with latest := { (getReport r l.length).1.latest with hasTs := false } }
      list := l } (some (getReport r l.length).2) := by
  unfold report
  rw [if_pos h, e]

theorem cleanUp_pending (l : NList) : numPending (cleanUp l) = numPending l := by
  unfold cleanUp numPending
  induction l with
  | nil => rfl
  | cons x r ih =>
    rw [List.dropWhile_cons]
    by_cases hx : x.2.status = .P
    · rw [if_neg (by simp [hx])]
    · rw [if_pos (by simp [hx]), ih, List.filter_cons, if_neg (by simp [hx])]

theorem cleanUp_starts (l : NList) : ((cleanUp l).filter fun x => startPending x.2).length = (l.filter fun x => startPending x.2).length := by
  unfold cleanUp
  induction l with
  | nil => rfl
  | cons x r ih =>
    rw [List.dropWhile_cons]
    by_cases hx : x.2.status = .P
    · rw [if_neg (by simp [hx])]
    · rw [if_pos (by simp [hx]), ih, List.filter_cons, if_neg (by simp [startPending, hx])]

end Validator

theorem updateReport_notSigned {r : Report} {l : NList} (h1 : r.thisVersion = []) (h3 : r.latest.auth = .notSigned) (h4 : r.acc.auth = .notSigned) : ∃ r', updateReport r l = .ok (r', cleanUp l) ∧
      r'.latest.auth = .notSigned ∧ r'.acc.auth = .notSigned ∧ r'.acc.received = r.acc.received ∧
      r'.acc.validated = r.acc.validated ∧ r'.latest.validationStr = some (validationStr l) ∧
      r'.latest.pending = r.latest.pending ∧ r'.thisVersion = r.thisVersion ∧
      r'.versionOnSigningSide = r.versionOnSigningSide := by
  have hcv : compareVersions (some r.thisVersion) (some r.versionOnSigningSide) = .ok (-1) := by
    rw [h1]; rfl
  unfold updateReport
  dsimp only
  rw [hcv, Out.bind_ok]
  have hacc : ∀ x : Latest, x.auth = .notSigned → (updateAccumulated x r.acc).auth = .notSigned ∧
      (updateAccumulated x r.acc).received = r.acc.received ∧ (updateAccumulated x r.acc).validated = r.acc.validated := by
    intro x hx
    by_cases a : r.acc.keyVal = .notOk <;> cases b : x.hasTs <;> cases c : r.acc.hasTs <;>
      simp [updateAccumulated, h4, a, b, c, hx, Auth.val]
  have := hacc { r.latest with naluStr := some (naluStr l), validationStr := some (validationStr l) } h3
  have h0 : ¬ ((-1 : Int) = 2) := by decide
  simp only [h0, if_false]
  rw [if_neg (by rw [this.1]; simp)]
  exact ⟨_, rfl, h3, this.1, this.2.1, this.2.2, rfl, rfl, rfl, rfl⟩

/-- What a report says about a stream without SEIs. -/
structure NotSignedReport (c : Codec) (ds : List Bytes) (r : Report) : Prop where
  latest : r.latest.auth = .notSigned
  acc : r.acc.auth = .notSigned
  marks : ∃ str, r.latest.validationStr = some str ∧ (∀ ch ∈ str, ch = 'P' ∨ ch = 'U' ∨ ch = '_') ∧
    ((str.filter (· = 'P')).length : Int) = r.latest.pending
  pending : r.latest.pending = (ds.filter fun d => decide (LegalHeader c (headerOf d).1 (headerOf d).2 ∧
    Protected c (headerOf d).1 (headerOf d).2)).length
  received : r.acc.received = ds.length
  held : r.acc.pending = ds.length
  validated : r.acc.validated = 0

theorem parseNalu_valid {d : Bytes} {c : Codec} {n : Nalu} (hne : d ≠ []) (h : parseNalu d c true true = .ok n) :
    n.valid = 1 ∨ n.valid = 0 := by
  obtain ⟨t, v, prim, _, _, _, _, hv, _⟩ := parseNalu_header d c true true n hne h
  rw [hv]; cases v <;> simp

theorem Unsigned.nalu {env : AuthEnv} {c : Codec} {ds : List Bytes} {s : Validator} (u : Unsigned env c ds s)
    (w : Validator.WFs s) (hr : 0 < env.rounds) {d : Bytes} {n : Nalu} (hd : d ≠ []) (hn : parseNalu d c true true = .ok n)
    (hg : n.gopSei = false) :
    ∃ s' r, s.add env d = .ok s' r ∧ Unsigned env c (ds ++ [d]) s' ∧ (∀ p, r = some p → NotSignedReport c (ds ++ [d]) p) ∧
      (r.isSome = true ↔ (n.valid = 1 ∧ n.isHashable = true ∧ n.firstInGop = true) ∧
        2 ≤ ((ds ++ [d]).filter fun d => match parseNalu d c true true with
          | .ok n => decide (n.valid = 1) && n.isHashable && n.firstInGop
          | _ => false).length) := by
  obtain ⟨ht, hgo⟩ := (parseNalu_unsigned hd hn).1 hg
  have hv := parseNalu_valid hd hn
  have hprot : n.isHashable = true ↔ Protected c (headerOf d).1 (headerOf d).2 := by
    rw [C16_validated_types d c true n hd hn, hg]; simp
  have hleg := C16_legal d c true true n hd hn
  have hst : (newItem (some n)).status = .P ↔ n.valid = 1 ∧ n.isHashable = true := by
    show (if n.valid < 0 then Status.E else if n.valid = 0 then .U else if n.isHashable then .P else .ignored) = .P ↔ _
    rcases hv with e | e <;> rw [e] <;> cases n.isHashable <;> simp
  -- the state when the NAL unit has been appended
  let s1 : Validator := { s with started := true, hasReport := true, flags := { s.flags with hasAuth := false, firstSei := false, signing := false }, rep := { s.rep with acc := { s.rep.acc with received := s.rep.acc.received + 1 } }, list := s.list.append s.brk (newItem (some n)), brk := s.brk + 1 }
  have w1 : Validator.WFs s1 := Validator.WF.append w _
  have q1 : ∀ x ∈ s1.list, Quiet x.2 := by
    intro x hx
    rcases List.mem_append.1 hx with hx | hx
    · exact u.quiet x hx
    · rw [List.mem_singleton.1 hx]
      refine ⟨⟨n, rfl, hg, ht, hgo⟩, rfl, ?_⟩
      have e0 : (newItem (some n)).status = (if n.valid < 0 then Status.E else if n.valid = 0 then .U else if n.isHashable then .P else .ignored) := rfl
      rw [e0]
      rcases hv with e | e <;> rw [e] <;> cases n.isHashable <;> simp
  have hs1 : s1.list = s.list.append s.brk (newItem (some n)) := rfl
  have hstart : startPending (newItem (some n)) = (decide (n.valid = 1) && n.isHashable && n.firstInGop) := by
    have e0 : startPending (newItem (some n)) = (decide ((newItem (some n)).status = .P) && (n.isHashable && n.firstInGop)) := rfl
    rw [e0]
    by_cases h1 : n.valid = 1 <;> cases h2 : n.isHashable <;> simp [hst, h1, h2]
  have p1 : numPending s1.list = ((ds ++ [d]).filter fun d => decide (LegalHeader c (headerOf d).1 (headerOf d).2 ∧
      Protected c (headerOf d).1 (headerOf d).2)).length := by
    rw [hs1]
    unfold NList.append numPending
    rw [List.filter_append, List.length_append, List.filter_append, List.length_append]
    have := u.pend
    unfold numPending at this
    rw [this]
    congr 1
    rw [List.filter_cons, List.filter_cons, List.filter_nil, List.filter_nil]
    have : decide ((newItem (some n)).status = .P) = decide (LegalHeader c (headerOf d).1 (headerOf d).2 ∧
      Protected c (headerOf d).1 (headerOf d).2) := by
      rw [decide_eq_decide, hst, hleg, hprot]
    show (if decide ((newItem (some n)).status = .P) = true then _ else _ : NList).length = _
    rw [this]
    split <;> rfl
  have t1 : (s1.list.filter fun x => startPending x.2).length = ((ds ++ [d]).filter fun d => match parseNalu d c true true with
      | .ok n => decide (n.valid = 1) && n.isHashable && n.firstInGop
      | _ => false).length := by
    rw [hs1]
    unfold NList.append
    rw [List.filter_append, List.length_append, List.filter_append, List.length_append, u.starts]
    congr 1
    rw [List.filter_cons, List.filter_cons, List.filter_nil, List.filter_nil]
    show (if startPending (newItem (some n)) = true then _ else _ : NList).length = _
    rw [hstart, hn]
    dsimp only
    split <;> rfl
  -- registration does nothing
  have hreg : s1.register env s.brk n = .ok s1 () := by
    unfold Validator.register
    have h0 : ¬ n.valid < 0 := by omega
    rw [if_neg h0]
    by_cases hz : n.valid = 0
    · rw [if_pos hz]
    · rw [if_neg hz]
      have hu : updateHashable n = .ok n := by unfold updateHashable; rw [hg]; simp
      rw [hu]
      dsimp only
      have hset : (s1.list.set s.brk fun i => { i with nalu := some n }) = s1.list := by
        refine Validator.set_same fun x hx e => ?_
        have hm : (s.brk, newItem (some n)) ∈ s1.list := List.mem_append_right _ (List.mem_singleton.2 rfl)
        have := w1.unique hx hm e
        rw [this]; rfl
      rw [hset]
      cases hf : s1.list.find? fun x => x.1 = s.brk with
      | none =>
        have := List.find?_eq_none.1 hf (s.brk, newItem (some n)) (List.mem_append_right _ (List.mem_singleton.2 rfl))
        simp at this
      | some x =>
        dsimp only
        obtain ⟨m, hm, _⟩ := (q1 x (List.mem_of_find?_eq_some hf)).nalu
        unfold Validator.hashItem
        rw [hm]
        dsimp only
        rw [if_pos (by show (!m.isHashable || !s.d.hashAlgoKnown) = true; rw [u.unknown]; simp)]
  have halgo : s1.hashAlgoBlock env s.brk n = .ok s1 () := by
    unfold Validator.hashAlgoBlock
    rw [if_pos (by show (s.d.hashAlgoKnown || !false) = true; simp)]
  have hlast : s1.list.getLast? = some (s.brk, newItem (some n)) := by
    rw [hs1]; unfold NList.append; simp
  -- validation
  have hval : ∃ t, s1.maybeValidate env n = .ok t () ∧ t.list = s1.list ∧ t.brk = s1.brk ∧ t.codec = s1.codec ∧ t.d = s1.d ∧
      t.legacy = s1.legacy ∧ t.flags.signing = false ∧ t.rep.acc = s1.rep.acc ∧ t.rep.thisVersion = s1.rep.thisVersion ∧
      t.rep.versionOnSigningSide = s1.rep.versionOnSigningSide ∧
      (if (n.valid = 1 ∧ n.isHashable = true ∧ n.firstInGop = true) ∧ 2 ≤ (s1.list.filter fun x => startPending x.2).length then
        t.flags.hasAuth = true ∧ t.rep.latest.auth = .notSigned ∧ t.rep.latest.pending = numPending s1.list
       else t.flags.hasAuth = false ∧ t.rep.latest = s1.rep.latest) := by
    unfold Validator.maybeValidate
    rw [if_neg (by show ¬ s.legacy = true; rw [u.legacy]; simp), hlast]
    dsimp only
    have hrec : s1.recurrentDecoded env = .ok s1 true := by
      unfold Validator.recurrentDecoded
      rw [if_pos (by show (s.d.hasPublicKey || !false) = true; simp)]
    rw [hrec, Res.andThen_ok]
    have hfeas : Validator.feasible (newItem (some n)) = decide (n.valid = 1 ∧ n.isHashable = true ∧ n.firstInGop = true) := by
      have e0 : Validator.feasible (newItem (some n)) = (!n.golden && n.isHashable && decide ((newItem (some n)).status = .P) && (n.gopSei || n.firstInGop)) := rfl
      rw [e0, hgo, hg]
      by_cases h1 : n.valid = 1 <;> cases h2 : n.isHashable <;> cases h3 : n.firstInGop <;> simp [hst, h1, h2]
    rw [hfeas]
    by_cases hF : n.valid = 1 ∧ n.isHashable = true ∧ n.firstInGop = true
    · rw [decide_eq_true hF, if_neg (by simp)]
      obtain ⟨k, hk⟩ := Nat.exists_eq_succ_of_ne_zero (by omega : env.rounds ≠ 0)
      rw [hk]
      obtain ⟨t, e, r1, r2, r3, r4, r5, r6, r7, r8, r9, r10⟩ := Validator.rounds_quiet env k (s := s1) rfl q1
      refine ⟨t, e, r1, r2, r3, r4, r5, r6, r7, r8, r9, ?_⟩
      by_cases h2 : 2 ≤ (s1.list.filter fun x => startPending x.2).length
      · rw [if_pos h2] at r10; rw [if_pos ⟨hF, h2⟩]; exact r10
      · rw [if_neg h2] at r10; rw [if_neg (fun hc => h2 hc.2)]; exact r10
    · rw [decide_eq_false hF, if_pos (by simp), if_neg (by show ¬ false = true; simp)]
      exact ⟨_, rfl, rfl, rfl, rfl, rfl, rfl, rfl, rfl, rfl, rfl, by rw [if_neg (fun hc => hF hc.1)]; exact ⟨rfl, rfl⟩⟩
  obtain ⟨t, et, r1, r2, r3, r4, r5, r6, r7, r8, r9, r10⟩ := hval
  have wt : Validator.WFs t := by unfold Validator.WFs; rw [r1, r2]; exact w1
  obtain ⟨l, el, l1, l2, l3, l4⟩ := Validator.copyLast_quiet wt (by rw [r4]; exact u.unknown) (by rw [r1]; exact q1)
    (by rw [r1, hs1]; unfold NList.append; simp)
  have hadd : s.add env d = (if t.legacy then .ok { t with list := l } none else Validator.report { t with list := l }) := by
    unfold Validator.add Validator.addH26x
    rw [if_neg hd]
    dsimp only
    rw [if_neg hd, if_neg (by rw [u.legacy]; simp), u.codec, hn]
    dsimp only
    have hb : Validator.addBody env { s with started := true, hasReport := true, flags := { s.flags with hasAuth := false }, rep := { s.rep with acc := { s.rep.acc with received := s.rep.acc.received + 1 } } } n = .ok t () := by
      unfold Validator.addBody
      dsimp only
      rw [if_neg (by omega), u.signing, hg]
      show (s1.register env s.brk n).andThen _ = _
      rw [hreg, Res.andThen_ok, halgo, Res.andThen_ok, et]
    rw [u.codec] at hb
    rw [hb]
    dsimp only
    unfold Validator.addEnd
    rw [el, Res.andThen_ok]
    dsimp only
    rw [Res.andThen_ok]
  have hleg' : t.legacy = false := by rw [r5]; exact u.legacy
  rw [hadd.trans (if_neg (by rw [hleg']; simp))]
  have hpend : numPending l = ((ds ++ [d]).filter fun d => decide (LegalHeader c (headerOf d).1 (headerOf d).2 ∧
      Protected c (headerOf d).1 (headerOf d).2)).length := by rw [l2, r1, p1]
  have hstarts := l3
  rw [r1, t1] at hstarts
  rw [t1] at r10
  by_cases hA : (n.valid = 1 ∧ n.isHashable = true ∧ n.firstInGop = true) ∧
      2 ≤ ((ds ++ [d]).filter fun d => match parseNalu d c true true with
          | .ok n => decide (n.valid = 1) && n.isHashable && n.firstInGop
          | _ => false).length
  · rw [if_pos hA] at r10
    obtain ⟨a1, a2, a3⟩ := r10
    have hacc : t.rep.acc.auth = .notSigned := by rw [r7]; exact u.acc
    obtain ⟨r, er, g1, g2, g3, g4, g5, g6, g7, g8⟩ := updateReport_notSigned (l := l) (r8.trans u.this) a2 hacc
    rw [Validator.report_eq (s := { t with list := l }) a1 er]
    refine ⟨_, _, rfl, ?_, ?_, ⟨fun _ => hA, fun _ => rfl⟩⟩
    · exact {
        codec := r3.trans u.codec
        signing := r6
        legacy := hleg'
        unknown := by show t.d.hashAlgoKnown = false; rw [r4]; exact u.unknown
        quiet := fun x hx => l1 x ((List.dropWhile_sublist _).mem hx)
        pend := (Validator.cleanUp_pending l).trans hpend
        starts := (Validator.cleanUp_starts l).trans hstarts
        this := g7.trans (r8.trans u.this)
        other := g8.trans (r9.trans u.other)
        acc := g2
        received := by
          show r.acc.received = _
          rw [g3, r7, List.length_append]
          show s.rep.acc.received + 1 = _
          rw [u.received]; rfl
        validated := by show r.acc.validated = 0; rw [g4, r7]; exact u.validated
        latest := g1 }
    · intro p hp
      cases hp
      exact {
        latest := g1
        acc := g2
        marks := by
          refine ⟨validationStr l, ?_, ?_, ?_⟩
          · show some (r.latest.validationStr.getD []) = _
            rw [g5]; rfl
          · intro ch hch
            obtain ⟨x, hx, rfl⟩ := List.mem_map.1 hch
            rcases (l1 x hx).status with e | e | e <;> rw [e]
            · exact .inl rfl
            · exact .inr (.inl rfl)
            · exact .inr (.inr rfl)
          · show _ = r.latest.pending
            rw [g6, a3, ← r1, ← l2]
            unfold validationStr numPending
            rw [List.filter_map, List.length_map]
            congr 2
            refine List.filter_congr fun x hx => ?_
            show decide (x.2.status.char = 'P') = _
            rcases (l1 x hx).status with e | e | e <;> rw [e] <;> rfl
        pending := by
          show r.latest.pending = _
          rw [g6, a3, p1]
        received := by
          show r.acc.received = _
          rw [g3, r7, List.length_append]
          show s.rep.acc.received + 1 = _
          rw [u.received]; rfl
        held := by
          show (if r.acc.auth = .notSigned then r.acc.received else _) = _
          rw [if_pos g2, g3, r7, List.length_append]
          show s.rep.acc.received + 1 = _
          rw [u.received]; rfl
        validated := by show r.acc.validated = 0; rw [g4, r7]; exact u.validated }
  · rw [if_neg hA] at r10
    unfold Validator.report
    rw [if_neg (by show ¬ t.flags.hasAuth = true; rw [r10.1]; simp)]
    refine ⟨_, _, rfl, ?_, (fun p hp => nomatch hp), ?_⟩
    · exact {
        codec := r3.trans u.codec
        signing := r6
        legacy := hleg'
        unknown := by show t.d.hashAlgoKnown = false; rw [r4]; exact u.unknown
        quiet := l1
        pend := hpend
        starts := hstarts
        this := r8.trans u.this
        other := r9.trans u.other
        acc := by show t.rep.acc.auth = _; rw [r7]; exact u.acc
        received := by
          show t.rep.acc.received = _
          rw [r7, List.length_append]
          show s.rep.acc.received + 1 = _
          rw [u.received]; rfl
        validated := by show t.rep.acc.validated = 0; rw [r7]; exact u.validated
        latest := by show t.rep.latest.auth = _; rw [r10.2]; exact u.latest }
    · constructor
      · intro h; cases h
      · intro h; exact absurd h hA

theorem Unsigned.empty (env : AuthEnv) (c : Codec) (s : Validator) (h1 : s.codec = c) (h2 : s.flags.signing = false)
    (h3 : s.legacy = false) (h4 : s.d.hashAlgoKnown = false) (h5 : s.list = []) (h6 : s.rep.thisVersion = [])
    (h7 : s.rep.versionOnSigningSide = []) (h8 : s.rep.acc = accumulatedInit) (h9 : s.rep.latest = latestInit) :
    Unsigned env c [] s where
  codec := h1
  signing := h2
  legacy := h3
  unknown := h4
  quiet := by rw [h5]; intro x hx; cases hx
  pend := by rw [h5]; rfl
  starts := by rw [h5]; rfl
  this := h6
  other := h7
  acc := by rw [h8]; rfl
  received := by rw [h8]; rfl
  validated := by rw [h8]; rfl
  latest := by rw [h9]; rfl

/-- A call that adds no Signed Video SEI: the NAL unit can be parsed and does not contain the UUID. -/
def Fine (c : Codec) : AuthCall → Prop
  | .nalu d => NoSei d ∧ d ≠ [] ∧ ∃ n, parseNalu d c true true = .ok n
  | _ => True

/-- Is the NAL unit a valid first one of a GOP? -/
def startsGop (c : Codec) (d : Bytes) : Bool :=
  match parseNalu d c true true with
  | .ok n => decide (n.valid = 1) && n.isHashable && n.firstInGop
  | _ => false

theorem sinceReset_snoc (cs : List AuthCall) (c : AuthCall) : sinceReset (cs ++ [c]) = match c with
    | .nalu d => sinceReset cs ++ [d]
    | .reset => []
    | .publicKey _ => sinceReset cs := by
  unfold sinceReset
  rw [List.foldl_append]
  cases c <;> rfl

theorem unsigned_run (env : AuthEnv) (hr : 0 < env.rounds) (c : Codec) (cs : List AuthCall) : ∀ (before : List AuthCall) (s : Validator),
    Unsigned env c (sinceReset before) s → Validator.WFs s → (∀ x ∈ cs, Fine c x) →
    ∃ s' os, authRun env s cs = .ok (s', os) ∧ os.length = cs.length ∧
      ∀ (i : Nat) (d : Bytes) (o : AObs), cs[i]? = some (.nalu d) → os[i]? = some o → o.rc = none ∧
        (o.report.isSome = true ↔ startsGop c d = true ∧ 2 ≤ ((sinceReset (before ++ cs.take (i + 1))).filter (startsGop c)).length) ∧
        ∀ r, o.report = some r → NotSignedReport c (sinceReset (before ++ cs.take (i + 1))) r := by
  induction cs with
  | nil => intro before s _ _ _; exact ⟨s, [], rfl, rfl, fun i d o h => by cases h⟩
  | cons x cs ih =>
    intro before s u w hf
    have step : ∃ s1 o1, authStep env s x = .ok (s1, o1) ∧ Unsigned env c (sinceReset (before ++ [x])) s1 ∧
        ∀ d, x = .nalu d → o1.rc = none ∧
          (o1.report.isSome = true ↔ startsGop c d = true ∧ 2 ≤ ((sinceReset (before ++ [x])).filter (startsGop c)).length) ∧
          ∀ r, o1.report = some r → NotSignedReport c (sinceReset (before ++ [x])) r := by
      rw [sinceReset_snoc]
      cases x with
      | nalu d =>
        obtain ⟨h1, h2, n, h3⟩ := hf _ List.mem_cons_self
        have hg : n.gopSei = false := by
          cases hg : n.gopSei with
          | false => rfl
          | true => exact absurd ((parseNalu_unsigned h2 h3).2 hg) h1
        obtain ⟨s', r, e, u', hp, hi⟩ := u.nalu w hr h2 h3 hg
        refine ⟨s', ⟨none, r⟩, ?_, u', ?_⟩
        · unfold authStep authCall
          dsimp only
          rw [e]
        · intro d' hd'
          cases hd'
          refine ⟨rfl, ?_, hp⟩
          rw [show startsGop c d = (decide (n.valid = 1) && n.isHashable && n.firstInGop) by unfold startsGop; rw [h3]]
          rw [show (decide (n.valid = 1) && n.isHashable && n.firstInGop) = true ↔ (n.valid = 1 ∧ n.isHashable = true ∧ n.firstInGop = true) by
            simp [and_assoc]]
          exact hi
      | reset =>
        exact ⟨_, _, rfl, Unsigned.empty env c _ u.codec rfl u.legacy rfl rfl u.this u.other rfl rfl, fun d h => by cases h⟩
      | publicKey k =>
        have main : ∃ s1, (∃ o, authStep env s (.publicKey k) = .ok (s1, o)) ∧ Unsigned env c (sinceReset before) s1 := by
          unfold authStep authCall Validator.setPublicKey
          dsimp only
          by_cases hk : k = []
          · exact ⟨_, ⟨_, by rw [if_pos hk]; rfl⟩, u⟩
          · rw [if_neg hk]
            by_cases h1 : s.d.publicKey ≠ []
            · exact ⟨_, ⟨_, by rw [if_pos h1]; rfl⟩, u⟩
            · rw [if_neg h1]
              by_cases h2 : s.started = true
              · exact ⟨_, ⟨_, by rw [if_pos h2]; rfl⟩, u⟩
              · rw [if_neg h2]
                by_cases h3 : env.crypto.keyOk k = true
                · refine ⟨_, ⟨_, by rw [if_pos h3]; exact rfl⟩, ?_⟩
                  exact ⟨u.codec, u.signing, u.legacy, u.unknown, u.quiet, u.pend, u.starts, u.this, u.other, u.acc, u.received, u.validated, u.latest⟩
                · refine ⟨_, ⟨_, by rw [if_neg h3]; exact rfl⟩, ?_⟩
                  exact ⟨u.codec, u.signing, u.legacy, u.unknown, u.quiet, u.pend, u.starts, u.this, u.other, u.acc, u.received, u.validated, u.latest⟩
        obtain ⟨s1, ⟨o, e⟩, u1⟩ := main
        exact ⟨s1, o, e, u1, fun d h => by cases h⟩
    obtain ⟨s1, o1, e1, u1, p1⟩ := step
    obtain ⟨s2, os, e2, len, p2⟩ := ih (before ++ [x]) s1 u1 (Validator.authStep_wfs w e1) fun y hy => hf y (List.mem_cons_of_mem _ hy)
    refine ⟨s2, o1 :: os, ?_, by rw [List.length_cons, List.length_cons, len], ?_⟩
    · unfold authRun
      rw [e1, Out.bind_ok]
      dsimp only
      rw [e2]; rfl
    · intro i d o h1 h2
      cases i with
      | zero =>
        cases h2
        exact p1 d (by simpa using h1)
      | succ i =>
        have := p2 i d o (by simpa using h1) (by simpa using h2)
        rw [List.append_assoc] at this
        exact this

/-- **C45.** In a session that receives only NAL units without the UUID of Signed Video, with any resets and public keys
in between, no call for a NAL unit fails.  A report is given exactly for a NAL unit that starts a GOP which is not the
first one.  Every report says NOT SIGNED, nothing is marked as valid, invalid or missing, and the number of pending NAL
units is that of the protected ones received since the last reset. -/
theorem C45_not_signed (env : AuthEnv) (hr : 0 < env.rounds) (c : Codec) (cs : List AuthCall) (hf : ∀ x ∈ cs, Fine c x) :
    ∃ s os, authRun env (newValidator env c) cs = .ok (s, os) ∧ os.length = cs.length ∧
      ∀ (i : Nat) (d : Bytes) (o : AObs), cs[i]? = some (.nalu d) → os[i]? = some o → o.rc = none ∧
        (o.report.isSome = true ↔ startsGop c d = true ∧ 2 ≤ ((sinceReset (cs.take (i + 1))).filter (startsGop c)).length) ∧
        ∀ r, o.report = some r → NotSignedReport c (sinceReset (cs.take (i + 1))) r :=
  unsigned_run env hr c cs [] _ (Unsigned.empty env c _ rfl rfl rfl rfl rfl rfl rfl rfl rfl)
    ⟨List.nodup_nil, fun x hx => by cases hx⟩ hf

/-- A stream of three GOPs with an access unit delimiter, a public key and a reset. -/
def unsignedCalls : List AuthCall :=
  [.publicKey [1], .nalu (toyNalu 'I' 1), .nalu (toyNalu 'P' 2), .nalu (toyNalu 'D' 0), .nalu (toyNalu 'I' 3), .nalu (toyNalu 'P' 4),
    .reset, .nalu (toyNalu 'I' 5), .nalu (toyNalu 'P' 6), .nalu (toyNalu 'I' 7)]

/-- Can the call be part of such a stream?  Decided by evaluation, for short NAL units. -/
def fineB (c : Codec) : AuthCall → Bool
  | .nalu d => decide (d.length < uuid.length) && d != [] && (match parseNalu d c true true with | .ok _ => true | _ => false)
  | _ => true

example : ∀ x ∈ unsignedCalls, Fine .h264 x := by
  have key : ∀ x, fineB .h264 x = true → Fine .h264 x := by
    intro x h
    cases x with
    | nalu d =>
      simp only [fineB, Bool.and_eq_true, decide_eq_true_eq, bne_iff_ne] at h
      obtain ⟨⟨h1, h2⟩, h3⟩ := h
      refine ⟨?_, h2, ?_⟩
      · intro h
        exact absurd h.length_le (Nat.not_le.mpr h1)
      · cases h : parseNalu d .h264 true true with
        | ok n => exact ⟨n, rfl⟩
        | err e => rw [h] at h3; cases h3
        | ub e => rw [h] at h3; cases h3
    | reset => trivial
    | publicKey k => trivial
  have : unsignedCalls.all (fineB .h264) = true := by decide +kernel
  intro x hx
  exact key x (List.all_eq_true.mp this x hx)

example : (match authRun toyEnv (newValidator toyEnv .h264) unsignedCalls with
    | .ok (_, os) => os.map fun o => o.report.map fun r => (String.ofList (r.latest.validationStr.getD []), r.latest.auth)
    | _ => []) = [none, none, none, none, some ("PP_P", .notSigned), none, none, none, none, some ("PPP", .notSigned)] := by
  decide +kernel

end SV
