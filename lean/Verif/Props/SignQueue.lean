import Verif.Proofs.SignRun
import Verif.Props.Nalu
/-! Properties of the SEI buffer of a signing session: C30, C31, C32, C33. -/
namespace SV
open Spec

/-! ### A concrete session -/

/-- A hash function for the examples. -/
def toyHash (b : Bytes) : Bytes := List.replicate 31 0x5A ++ [b.foldl (fun x y => x * 3 + y) 1]

/-- Every hash algorithm is the toy hash. -/
def toyHashing : Hashing := ⟨fun _ b => toyHash b, fun _ => some ([0x60, 0x86], 32)⟩

def toySigner : Signer := newSigner .h264 [0x60, 0x86] (2, 2, 0)

/-- Setting a key with signatures of at most 72 bytes, and adding an I-frame, a P-frame and an I-frame. -/
def toyCalls : List SCall :=
  [.set (.privateKey (some ([9, 9, 9], 72)) true),
   .nalu [0, 0, 0, 1, 0x65, 0x88, 0x84, 0x80] none true none,
   .nalu [0, 0, 0, 1, 0x41, 0x9a, 0x80] none true none,
   .nalu [0, 0, 0, 1, 0x65, 0x88, 0x85, 0x80] none true none]

/-! ### C30 -/

/-- The full claim of C30: for every plugin. -/
def C30_statement : Prop := ∀ hs codec oid v cs,
  match signRun hs (newSigner codec oid v) cs with
  | .ok (s, os) => s.completed ≤ s.idx ∧ ∀ o ∈ os, o.pending ≤ 60
  | .err _ => False
  | .ub u => u ≠ .oobIndex ∧ u ≠ .useAfterFree ∧ u ≠ .nullDeref ∧ u ≠ .nullCall ∧ u ≠ .assertFail

/-- **C30**, for every sequence of calls and every plugin that does not deliver more signatures than it accepted hashes
and no empty signature: at most 60 SEIs are pending, not more are completed than pending, and no access to the SEI buffer
is out of bounds, to freed memory or to NULL, and the assertion holds.  Missing: plugins that do, for which it is false
(`C30_statement_false`). -/
theorem C30_partial (hs : Hashing) (codec : Codec) (oid : Bytes) (v : UInt8 × UInt8 × UInt8) (cs : List SCall)
    (h : Honest hs (newSigner codec oid v) 0 cs) :
    match signRun hs (newSigner codec oid v) cs with
    | .ok (s, os) => s.idx ≤ 60 ∧ s.completed ≤ s.idx ∧ ∀ o ∈ os, o.pending ≤ 60
    | .err _ => False
    | .ub u => u ≠ .oobIndex ∧ u ≠ .useAfterFree ∧ u ≠ .nullDeref ∧ u ≠ .nullCall ∧ u ≠ .assertFail := by
  have := signRun_q hs cs _ ⟨[], []⟩ 0 (newSigner_q codec oid v) rfl h
  cases hr : signRun hs (newSigner codec oid v) cs with
  | err e => rw [hr] at this; exact this
  | ub u =>
    rw [hr] at this
    rcases this with h | h | h <;> subst h <;> decide
  | ok p =>
    obtain ⟨s, os⟩ := p
    rw [hr] at this
    obtain ⟨q, gs, ds, xs, h1, h2⟩ := this
    have hle := h1.le
    refine ⟨?_, ?_, h2.pending⟩
    · rw [h1.idx]; exact hle
    · rw [h1.idx, h1.completed, Queue.slots_length]; omega

/-- An executable check of `Honest`. -/
def honestB (hs : Hashing) : Signer → Nat → List SCall → Bool
  | _, _, [] => true
  | s, n, c :: cs => decide ((offered c).length ≤ n + extra c) && (offered c).all (fun x => !x.isEmpty) &&
    match signStep hs s c with
    | .ok (s', o) => honestB hs s' (n + o.signed.toList.length - o.got.length) cs
    | _ => true

theorem honest_of_check (hs : Hashing) (cs : List SCall) : ∀ s n, honestB hs s n cs = true → Honest hs s n cs := by
  induction cs with
  | nil => intro _ _ _; trivial
  | cons c cs ih =>
    intro s n h
    simp only [honestB, Bool.and_eq_true, decide_eq_true_eq, List.all_eq_true] at h
    refine ⟨h.1.1, fun x hx hc => ?_, fun s' o hs' => ?_⟩
    · have := h.1.2 x hx
      rw [hc] at this; simp at this
    · have := h.2
      rw [hs'] at this
      exact ih s' _ this

/-- An executable check of a run. -/
def runB (r : Out (Signer × List Obs)) (p : List Obs → Bool) : Bool :=
  match r with
  | .ok (_, os) => p os
  | _ => false

theorem runCheck (hs : Hashing) (s : Signer) (cs : List SCall) (P : List Obs → Prop) [∀ os, Decidable (P os)]
    (h : runB (signRun hs s cs) (fun os => decide (P os)) = true) : ∃ s' os, signRun hs s cs = .ok (s', os) ∧ P os := by
  cases hr : signRun hs s cs with
  | ok p => rw [hr] at h; exact ⟨p.1, p.2, rfl, by simpa [runB] using h⟩
  | err e => rw [hr] at h; cases h
  | ub u => rw [hr] at h; cases h

/-- The undefined behaviour of an outcome. -/
def ubOf {α : Type} : Out α → Option Ub
  | .ub u => some u
  | _ => none

theorem ubOf_eq {α : Type} {r : Out α} {u : Ub} (h : ubOf r = some u) : r = .ub u := by
  cases r <;> simp_all [ubOf]

/-- A session of three GOPs whose first SEI is completed and fetched. -/
example : Honest toyHashing toySigner 0 (toyCalls ++ [.getSei true none [.ok [1, 2, 3, 4]]]) ∧
    ∃ s os, signRun toyHashing toySigner (toyCalls ++ [.getSei true none [.ok [1, 2, 3, 4]]]) = .ok (s, os) ∧
      os.map Obs.pending = [0, 0, 0, 1, 0] ∧ (delivered os).length = 1 := by
  refine ⟨honest_of_check _ _ _ _ (by decide +kernel), ?_⟩
  exact runCheck _ _ _ (fun os => os.map Obs.pending = [0, 0, 0, 1, 0] ∧ (delivered os).length = 1) (by decide +kernel)

/-- A plugin that delivers an empty signature: the SEI is freed but stays in the buffer, and the next signature is
written to freed memory. -/
theorem C30_empty_signature :
    signRun toyHashing toySigner (toyCalls ++ [.getSei true none [.ok []], .getSei true none [.ok [1]]]) = .ub .useAfterFree := by
  exact ubOf_eq (by decide +kernel)

theorem C30_statement_false : ¬ C30_statement := by
  intro h
  have := h toyHashing .h264 [0x60, 0x86] (2, 2, 0) (toyCalls ++ [.getSei true none [.ok []], .getSei true none [.ok [1]]])
  rw [show newSigner .h264 [0x60, 0x86] (2, 2, 0) = toySigner from rfl, C30_empty_signature] at this
  exact this.2.1 rfl

/-! ### C31, C32 -/

/-- **C31**: with a plugin that does not deliver more signatures than it accepted hashes, and a user that only calls
`signed_video_get_sei`, there is one SEI for each accepted hash, and SEIs are handed out in the order they were
generated, each at most once, without gaps, after the plugin delivered the signature, which the SEI contains.  The
number of pending SEIs after the calls is the number of generated minus the number of delivered SEIs. -/
theorem C31_order (hs : Hashing) (codec : Codec) (oid : Bytes) (v : UInt8 × UInt8 × UInt8) (cs : List SCall)
    (h : Honest hs (newSigner codec oid v) 0 cs) (hc : ∀ c ∈ cs, NotPrepend c) (s : Signer) (os : List Obs)
    (hr : signRun hs (newSigner codec oid v) cs = .ok (s, os)) :
    ∃ (seis : List Done) (waiting : List Gen),
      os.filterMap Obs.signed = seis.map Done.g ++ waiting ∧
      generated os = seis.map (·.g.h) ++ waiting.map Gen.h ∧ (∀ d ∈ seis, d.g.Good hs) ∧ (∀ g ∈ waiting, g.Good hs) ∧
      taken os = seis.map (·.e.signature) ∧
      delivered os = (seis.take (delivered os).length).map Done.bytes ∧
      s.idx = (generated os).length - (delivered os).length ∧ (delivered os).length ≤ (generated os).length := by
  have := signRun_q hs cs _ ⟨[], []⟩ 0 (newSigner_q codec oid v) rfl h
  rw [hr] at this
  obtain ⟨q, gs, ds, xs, h1, h2⟩ := this
  have hp : gs = ds.map Done.g ++ q.P := h2.pend
  have ho : xs ++ q.C = ds := h2.order hc
  have hdl : (delivered os).length = xs.length := by rw [h2.delivered, List.length_map]
  refine ⟨ds, q.P, h2.generated.trans hp, ?_, ?_, ?_, h2.taken, ?_, ?_, ?_⟩
  · rw [generated, h2.generated, hp, List.map_append, List.map_map]; rfl
  · intro d hd
    exact h2.good d.g (by rw [hp]; exact List.mem_append.2 (.inl (List.mem_map_of_mem hd)))
  · intro g hg
    exact h2.good g (by rw [hp]; exact List.mem_append.2 (.inr hg))
  · rw [hdl, ← ho, List.take_left]; exact h2.delivered
  · rw [h1.idx, Queue.slots_length, hdl, generated, h2.generated, hp, ← ho]; simp only [List.length_map, List.length_append]; omega
  · rw [hdl, generated, h2.generated, hp, ← ho]; simp only [List.length_map, List.length_append]; omega

/-- After every call, not only the last: the number of pending SEIs the user is told. -/
theorem C31_pending (hs : Hashing) (codec : Codec) (oid : Bytes) (v : UInt8 × UInt8 × UInt8) (cs : List SCall)
    (h : Honest hs (newSigner codec oid v) 0 cs) (s : Signer) (os : List Obs)
    (hr : signRun hs (newSigner codec oid v) cs = .ok (s, os)) (k : Nat) (hk : k < os.length) :
    (os.getD k {}).pending + (delivered (os.take (k + 1))).length = (generated (os.take (k + 1))).length := by
  have := signRun_q hs cs _ ⟨[], []⟩ 0 (newSigner_q codec oid v) rfl h
  rw [hr] at this
  obtain ⟨q, gs, ds, xs, h1, h2⟩ := this
  exact h2.count k hk

theorem sigsOf_mem (sign : Nat → Bytes → Option Bytes) (ds : List Done)
    (h : SigsOf sign (ds.map (·.g.h)) (ds.map (·.e.signature))) : ∀ d ∈ ds, IsSig sign d.g.h d.e.signature := by
  induction ds with
  | nil => intro d hd; cases hd
  | cons x ds ih =>
    intro d hd
    cases hd with
    | head => exact h.1
    | tail _ hd => exact ih h.2 d hd

/-- **C32**: also when SEIs are fetched by `signed_video_get_nalu_to_prepend` (last completed first), every SEI handed out
contains the signature of the hash of its own bytes before the signature, if the plugin signs in order; no SEI is handed
out twice. -/
theorem C32_own_signature (sign : Nat → Bytes → Option Bytes) (hs : Hashing) (codec : Codec) (oid : Bytes)
    (v : UInt8 × UInt8 × UInt8) (cs : List SCall) (h : Honest hs (newSigner codec oid v) 0 cs) (s : Signer) (os : List Obs)
    (hr : signRun hs (newSigner codec oid v) cs = .ok (s, os))
    (hp : SigsOf sign ((generated os).take (taken os).length) (taken os)) :
    ∃ seis : List Done, delivered os = seis.map Done.bytes ∧
      (∃ rest, (seis ++ rest).map (·.g.h) |>.Perm ((generated os).take (taken os).length)) ∧
      ∀ d ∈ seis, d.g.Good hs ∧ IsSig sign d.g.h d.e.signature := by
  have := signRun_q hs cs _ ⟨[], []⟩ 0 (newSigner_q codec oid v) rfl h
  rw [hr] at this
  obtain ⟨q, gs, ds, xs, h1, h2⟩ := this
  have hgs : gs = ds.map Done.g ++ q.P := h2.pend
  have hperm : (xs ++ q.C).Perm ds := h2.perm
  have hlen : (taken os).length = ds.length := by rw [h2.taken, List.length_map]
  have hgen : (generated os).take (taken os).length = ds.map (·.g.h) := by
    rw [hlen, generated, h2.generated, hgs, List.map_append, List.map_map]
    rw [List.take_append_of_le_length (by simp), List.take_of_length_le (by simp)]
    rfl
  rw [hgen, h2.taken] at hp
  refine ⟨xs, h2.delivered, ⟨q.C, ?_⟩, ?_⟩
  · rw [hgen]; exact hperm.map _
  · intro d hd
    have hm : d ∈ ds := hperm.subset (List.mem_append.2 (.inl hd))
    exact ⟨h2.good d.g (by rw [hgs]; exact List.mem_append.2 (.inl (List.mem_map_of_mem hm))), sigsOf_mem sign ds hp d hm⟩

/-! ### C33 -/

theorem primary_spec (data : Bytes) (c : Codec) (ct : Bool) (r : Nalu) (hne : data ≠ [])
    (h : parseNalu data c ct false = .ok r) (hh : r.isHashable = true) :
    r.primary = true ↔ 128 ≤ (sliceByte c data).toNat := by
  match data, h with
  | [], _ => exact absurd rfl hne
  | [_], h => simp [parseNalu] at h
  | [_, _], h => simp [parseNalu] at h
  | [_, _, _], h => simp [parseNalu] at h
  | a :: b :: x :: d :: rest, h =>
    have hbody : (a :: b :: x :: d :: rest).drop (startCode a b x d).1 =
        match a :: b :: x :: d :: rest with
        | 0 :: 0 :: 0 :: 1 :: b => b
        | 0 :: 0 :: 1 :: b => b
        | b => b := by
      unfold startCode
      split
      · next hc => obtain ⟨rfl, rfl, rfl, rfl⟩ := hc; rfl
      · next h4 =>
        split
        · next hc => obtain ⟨rfl, rfl, rfl⟩ := hc; rfl
        · next h3 =>
          split
          · next heq => simp only [List.cons.injEq] at heq; exact absurd ⟨heq.1, heq.2.1, heq.2.2.1, heq.2.2.2.1⟩ h4
          · next heq => simp only [List.cons.injEq] at heq; exact absurd ⟨heq.1, heq.2.1, heq.2.2.1⟩ h3
          · rfl
    have hsb : sliceByte c (a :: b :: x :: d :: rest) = ((a :: b :: x :: d :: rest).drop (startCode a b x d).1).getD (hdr c) 0 := by
      rw [hbody]; rfl
    rw [hsb]
    simp only [parseNalu] at h
    generalize (a :: b :: x :: d :: rest).drop (startCode a b x d).1 = m at h
    have hbit : ∀ z : UInt8, (z &&& 0x80 != 0) = true ↔ 128 ≤ z.toNat := by
      intro z
      have hfin : ∀ x : Fin 256, (UInt8.ofNat x.val &&& 0x80 != 0) = true ↔ 128 ≤ x.val := by decide +kernel
      have := hfin ⟨z.toNat, z.toNat_lt⟩
      simpa using this
    cases hp : parseHeader c m with
    | err e => rw [hp] at h; simp at h
    | ub u => rw [hp] at h; simp at h
    | ok y =>
      obtain ⟨t, v, prim⟩ := y
      rw [hp] at h
      simp only [Out.bind_ok] at h
      generalize (if ct then trimmedLen (a :: b :: x :: d :: rest) else .ok (a :: b :: x :: d :: rest).length) = sz at h
      cases sz with
      | err e => simp at h
      | ub u => simp at h
      | ok size =>
        simp only [Out.bind_ok] at h
        have hr : r.primary = prim ∧ (t = .i ∨ t = .p) := by
          split at h
          · next ht =>
            obtain ⟨g1, g2, _⟩ := parseSei_ntype c false _ r _ _ h
            rw [hh] at g2; simp at g2
          · cases h
            exact ⟨rfl, by simpa using hh⟩
        rw [hr.1]
        cases c with
        | h264 =>
          match m, hp with
          | b0 :: b1 :: m', hp =>
            simp only [parseHeader, Out.ok.injEq, Prod.mk.injEq] at hp
            rw [← hp.2.2]
            exact hbit b1
          | [_], hp => simp [parseHeader] at hp
          | [], hp => simp [parseHeader] at hp
        | h265 =>
          match m, hp with
          | b0 :: b1 :: b2 :: m', hp =>
            simp only [parseHeader] at hp
            split at hp
            · simp only [Out.ok.injEq, Prod.mk.injEq] at hp
              rcases hr.2 with ht | ht <;> rw [ht] at hp <;> simp at hp
            · simp only [Out.ok.injEq, Prod.mk.injEq] at hp
              rw [← hp.2.2]
              exact hbit b2
          | [b0, b1], hp =>
            simp only [parseHeader] at hp
            split at hp
            · simp only [Out.ok.injEq, Prod.mk.injEq] at hp
              rcases hr.2 with ht | ht <;> rw [ht] at hp <;> simp at hp
            · cases hp
          | [_], hp => simp [parseHeader] at hp
          | [], hp => simp [parseHeader] at hp

theorem completeSei_keeps (s t : Signer) (u : Unit) (h : completeSei s = .ok t u) : t.codec = s.codec ∧ t.idx = s.idx := by
  unfold completeSei at h
  dsimp only at h
  repeat' split at h
  all_goals first | (cases h; exact ⟨rfl, rfl⟩) | cases h

theorem completeSeis_keeps (sigs : List SigAnswer) : ∀ (s t : Signer) (u : Unit), completeSeis s sigs = .ok t u →
    t.codec = s.codec ∧ t.idx = s.idx := by
  induction sigs with
  | nil => intro s t u h; cases h; exact ⟨rfl, rfl⟩
  | cons a sigs ih =>
    intro s t u h
    cases a with
    | error e => cases h
    | ok sig =>
      unfold completeSeis at h
      split at h
      · cases h
      · obtain ⟨v, _, h1, h2⟩ := Res.andThen_eq_ok h
        have k1 := completeSei_keeps _ _ _ h1
        have k2 := ih v t u h2
        exact ⟨k2.1.trans k1.1, k2.2.trans k1.2⟩

theorem completeSeis_err_idx (sigs : List SigAnswer) : ∀ (s t : Signer) (e : Rc), completeSeis s sigs = .err t e →
    t.idx = s.idx := by
  induction sigs with
  | nil => intro s t u h; cases h
  | cons a sigs ih =>
    intro s t e h
    cases a with
    | error e => cases h; rfl
    | ok sig =>
      unfold completeSeis at h
      split at h
      · cases h
      · cases hc : completeSei { s with e := { s.e with signature := sig }, got := s.got ++ [sig] } with
        | ub u => rw [hc] at h; cases h
        | err v x =>
          rw [hc] at h; cases h
          unfold completeSei at hc
          dsimp only at hc
          repeat' split at hc
          all_goals first | (cases hc; rfl) | cases hc
        | ok v x =>
          rw [hc] at h
          exact (ih v t e h).trans (completeSei_keeps _ _ _ hc).2

/-- The next NAL unit is the first slice of a picture, by the tables of the standards. -/
def FirstSlice (c : Codec) (data : Bytes) : Prop :=
  Protected c (headerOf data).1 (headerOf data).2 ∧ 128 ≤ (sliceByte c data).toNat

theorem peekAllows_spec (data : Bytes) (c : Codec) (n : Nalu) (hne : data ≠ [])
    (h : parseNalu data c false false = .ok n) : peekAllows n = true ↔ FirstSlice c data := by
  have h1 := C16_signed_types data c false n hne h
  have h2 := primary_spec data c false n hne h
  have h3 : n.isHashable = true ↔ (n.ntype = .i ∨ n.ntype = .p) := by
    obtain ⟨t, v, prim, _, g1, g2, g3, _⟩ := parseNalu_header data c false false n hne h
    by_cases ht : t = .sei
    · rw [g3 ht, g1, ht]; simp
    · rw [g2 ht, g1]
  have hpa : peekAllows n = true ↔ (n.ntype = .i ∨ n.ntype = .p) ∧ n.primary = true := by
    unfold peekAllows; simp
  rw [hpa, ← h3]
  constructor
  · intro hx; exact ⟨h1.1 hx.1, (h2 hx.1).1 hx.2⟩
  · intro hx; have := h1.2 hx.1; exact ⟨this, (h2 this).2 hx.2⟩

/-- **C33**: for every session, every plugin and every peeked NAL unit, a SEI is handed out only if that NAL unit is the
first slice of a picture. -/
theorem C33_only_first_slice (hs : Hashing) (s s' : Signer) (copy : Bool) (pk : Bytes) (hne : pk ≠ [])
    (sigs : List SigAnswer) (o : Obs) (h : signStep hs s (.getSei copy (some pk) sigs) = .ok (s', o))
    (hsei : o.sei ≠ none) : FirstSlice s.codec pk := by
  unfold signStep at h
  simp only [signCall, getSei] at h
  generalize hs0 : ({ s with signed := none, got := [] } : Signer) = s0 at h
  have hcod : s0.codec = s.codec := by subst hs0; rfl
  cases hr : completeSeis s0 sigs with
  | ub u => rw [hr] at h; cases h
  | err t e => rw [hr] at h; cases h; exact absurd rfl hsei
  | ok t a =>
    have hk := completeSeis_keeps sigs s0 t a hr
    rw [hr] at h
    simp only [Res.andThen_ok] at h
    split at h
    · cases h; exact absurd rfl hsei
    · obtain ⟨b, bs, rfl⟩ : ∃ b bs, pk = b :: bs := by
        cases pk with
        | nil => exact absurd rfl hne
        | cons b bs => exact ⟨b, bs, rfl⟩
      dsimp only at h
      split at h
      · cases h
      · cases h; exact absurd rfl hsei
      · next n hn =>
        split at h
        · next hp =>
          rw [hk.1, hcod] at hn
          exact (peekAllows_spec _ _ n hne hn).1 hp
        · cases h; exact absurd rfl hsei

/-- **C33**: if the peeked NAL unit is not the first slice of a picture, the call does not hand out a SEI, and apart from
the flag that such a call was made, the session afterwards is that of a user who only asked for the size of the next SEI;
in particular no SEI is lost. -/
theorem C33_nothing_lost (hs : Hashing) (s s' t : Signer) (copy : Bool) (pk : Bytes) (hne : pk ≠ [])
    (sigs : List SigAnswer) (o p : Obs) (h : signStep hs s (.getSei copy (some pk) sigs) = .ok (s', o))
    (ht : signStep hs s (.getSei false none sigs) = .ok (t, p)) (hf : ¬ FirstSlice s.codec pk) :
    o.sei = none ∧ o.pending = s.idx ∧ { s' with avoidCheck := t.avoidCheck } = t := by
  have hsei : o.sei = none := by
    cases ho : o.sei with
    | none => rfl
    | some b => exact absurd (C33_only_first_slice hs s s' copy pk hne sigs o h (by rw [ho]; simp)) hf
  refine ⟨hsei, ?_⟩
  unfold signStep at h ht
  simp only [signCall, getSei] at h ht
  generalize hs0 : ({ s with signed := none, got := [] } : Signer) = s0 at h ht
  have hcod : s0.codec = s.codec := by subst hs0; rfl
  have hidx : s0.idx = s.idx := by subst hs0; rfl
  cases hr : completeSeis s0 sigs with
  | ub u => rw [hr] at h; cases h
  | err v e =>
    rw [hr] at h ht; cases h; cases ht
    refine ⟨?_, rfl⟩
    exact (completeSeis_err_idx sigs s0 _ e hr).trans hidx
  | ok v a =>
    have hk := completeSeis_keeps sigs s0 v a hr
    rw [hr] at h ht
    simp only [Res.andThen_ok] at h ht
    split at h
    · next hc =>
      rw [if_pos hc] at ht
      cases h; cases ht; exact ⟨hk.2.trans hidx, rfl⟩
    · next hc =>
      rw [if_neg hc] at ht
      have ht' : t = v := by
        unfold handOut at ht
        split at ht
        · cases ht
        · cases ht; rfl
      subst ht'
      obtain ⟨b, bs, rfl⟩ : ∃ b bs, pk = b :: bs := by
        cases pk with
        | nil => exact absurd rfl hne
        | cons b bs => exact ⟨b, bs, rfl⟩
      dsimp only at h
      split at h
      · cases h
      · cases h; exact ⟨hk.2.trans hidx, rfl⟩
      · next n hn =>
        split at h
        · next hp =>
          rw [hk.1, hcod] at hn
          exact absurd ((peekAllows_spec _ _ n hne hn).1 hp) hf
        · cases h; exact ⟨hk.2.trans hidx, rfl⟩

/-- A completed SEI is kept back in front of a parameter set and handed out in front of an I-frame. -/
example : ∃ s os, signRun toyHashing toySigner (toyCalls ++ [.getSei true (some [0, 0, 0, 1, 0x67, 0x42, 0x80]) [.ok [1, 2, 3, 4]],
      .getSei true (some [0, 0, 0, 1, 0x65, 0x88, 0x86, 0x80]) []]) = .ok (s, os) ∧
    os.map (fun o => o.sei.isSome) = [false, false, false, false, false, true] ∧ os.map Obs.pending = [0, 0, 0, 1, 1, 0] :=
  runCheck _ _ _ (fun os => os.map (fun o => o.sei.isSome) = [false, false, false, false, false, true] ∧
    os.map Obs.pending = [0, 0, 0, 1, 1, 0]) (by decide +kernel)

example : ¬ FirstSlice .h264 [0, 0, 0, 1, 0x67, 0x42, 0x80] ∧ FirstSlice .h264 [0, 0, 0, 1, 0x65, 0x88, 0x86, 0x80] := by
  unfold FirstSlice Protected; decide

end SV
