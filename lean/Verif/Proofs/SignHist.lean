import Verif.Proofs.Piece
/-! The history of a signing session: what has been hashed since the last SEI. -/
namespace SV
open Spec

/-! `L`: level and payload limit stay as they are. -/
variable {L : Prop}

/-! ### The specification functions -/

theorem pieceHashes_snoc (H : Bytes → Bytes) (r : Bytes) (ps : List Piece) (p : Piece) :
    pieceHashes H r (ps ++ [p]) =
      pieceHashes H r ps ++ [if p.first then H p.bytes else H (refAfter H r ps ++ H p.bytes)] := by
  induction ps generalizing r with
  | nil => rfl
  | cons q ps ih => simp only [List.cons_append, pieceHashes, refAfter, ih]

theorem refAfter_snoc (H : Bytes → Bytes) (r : Bytes) (ps : List Piece) (p : Piece) :
    refAfter H r (ps ++ [p]) = if p.first then H p.bytes else refAfter H r ps := by
  induction ps generalizing r with
  | nil => rfl
  | cons q ps ih => simp only [List.cons_append, refAfter, ih]

theorem pieceHashes_length (H : Bytes → Bytes) (r : Bytes) (ps : List Piece) : (pieceHashes H r ps).length = ps.length := by
  induction ps generalizing r with
  | nil => rfl
  | cons q ps ih => simp [pieceHashes, ih]

theorem pieceHashes_flatten {H : Bytes → Bytes} {n : Nat} (hl : ∀ x, (H x).length = n) (r : Bytes) (ps : List Piece) :
    (pieceHashes H r ps).flatten.length = ps.length * n := by
  induction ps generalizing r with
  | nil => simp [pieceHashes]
  | cons q ps ih =>
    simp only [pieceHashes, List.flatten_cons, List.length_append, ih, List.length_cons]
    split <;> rw [hl] <;> rw [Nat.add_mul] <;> omega

theorem refAfter_length {H : Bytes → Bytes} {n : Nat} (hl : ∀ x, (H x).length = n) (r : Bytes) (hr : r.length = n)
    (ps : List Piece) : (refAfter H r ps).length = n := by
  induction ps generalizing r with
  | nil => exact hr
  | cons q ps ih =>
    simp only [refAfter]
    apply ih
    split
    · exact hl _
    · exact hr

theorem refAfter_none {H : Bytes → Bytes} (r : Bytes) (ps : List Piece) (h : ps.any (·.first) = false) : refAfter H r ps = r := by
  induction ps generalizing r with
  | nil => rfl
  | cons q ps ih =>
    simp only [List.any_cons, Bool.or_eq_false_iff] at h
    simp only [refAfter, h.1]
    exact ih _ h.2

theorem gops_snoc (ps : List Piece) (p : Piece) : gops (ps ++ [p]) = addPiece (gops ps) p := by
  simp [gops]

theorem pieces_snoc (c : Codec) (cs : List SCall) (x : SCall) : pieces c (cs ++ [x]) = pieces c cs ++ (piece c x).toList := by
  simp only [pieces, List.filterMap_append]
  cases h : piece c x <;> simp [h]

/-! ### Changes that do not concern the history -/

/-- What all states of an undisturbed session have in common. -/
structure Same (L : Prop) (s0 s : Signer) : Prop where
  codec : s.codec = s0.codec
  oid : s.e.oid = s0.e.oid
  hashSize : s.e.hashSize = s0.e.hashSize
  listCap : s.listCap = s0.listCap
  maxSig : s.e.maxSignature = s0.e.maxSignature
  epb : s.epb = s0.epb
  golden : s.golden = s0.golden
  usingGolden : s.usingGolden = s0.usingGolden
  off : s.gopHashOff = s0.gopHashOff
  vendor : s.vendor = s0.vendor
  key : s.e.publicKey = s0.e.publicKey
  arb : s.e.arbitrary = s0.e.arbitrary
  axis : s.e.axis = s0.e.axis
  version : s.e.codeVersion = s0.e.codeVersion
  status : s.e.encodingStatus = s0.e.encodingStatus
  lvl : L → s.e.frameLevel = s0.e.frameLevel ∧ s.maxPayload = s0.maxPayload

/-- The part of the session that depends on the history. -/
structure HistSt where
  list : Option Bytes
  num : UInt16
  counter : UInt32
  linked : Bytes
  linkedNew : Bytes
  ref : Bytes
  hasRef : Bool
  enabled : Bool
  primary : Ctx
  ts : Option Int64
  last : Bool
  ht : UInt8

def Signer.hist (s : Signer) : HistSt :=
  ⟨s.e.hashList, s.e.numNalus, s.e.gopCounter, s.e.linkedHash, s.linkedNew, s.ref, s.hasRef, s.seiEnabled, s.primary,
    s.e.timestamp, s.lastIsLast, s.e.hashType⟩

/-- The members of the session the history depends on are `x`. -/
structure St (L : Prop) (s0 : Signer) (x : HistSt) (s : Signer) : Prop where
  same : Same L s0 s
  hist : s.hist = x
  fits : Fits s.encNow

theorem Same.refl (s : Signer) : Same L s s := ⟨rfl, rfl, rfl, rfl, rfl, rfl, rfl, rfl, rfl, rfl, rfl, rfl, rfl, rfl, rfl, fun _ => ⟨rfl, rfl⟩⟩

theorem Same.trans {a b c : Signer} (h : Same L a b) (g : Same L b c) : Same L a c :=
  ⟨g.1.trans h.1, g.2.trans h.2, g.3.trans h.3, g.4.trans h.4, g.5.trans h.5, g.6.trans h.6, g.7.trans h.7, g.8.trans h.8,
    g.9.trans h.9, g.10.trans h.10, g.11.trans h.11, g.12.trans h.12, g.13.trans h.13, g.14.trans h.14, g.15.trans h.15,
    fun hx => ⟨(g.16 hx).1.trans (h.16 hx).1, (g.16 hx).2.trans (h.16 hx).2⟩⟩

/-- Values that the codecs can hold, after a change. -/
theorem _root_.SV.Spec.Fits.change {e e' : EncState} (h : Fits e) (h1 : e'.hashSize = e.hashSize) (h2 : e'.linkedHash.length = e.hashSize)
    (h3 : e'.gopHash.length = e.hashSize) (h4 : e'.product = e.product) (h5 : e'.arbitrary = e.arbitrary)
    (h6 : e'.publicKey = e.publicKey) (h7 : ∀ l, e'.hashList = some l → l.length ≤ 19200) (h8 : e'.oid = e.oid)
    (h9 : e'.signature.length ≤ e.maxSignature) (h10 : e'.maxSignature = e.maxSignature) (h11 : e'.hashType < 2)
    (h12 : e'.axis = e.axis) : Fits e' where
  hashSize := by rw [h1]; exact h.hashSize
  linked := by rw [h2, h1]
  gop := by rw [h3, h1]
  hw := by rw [h4]; exact h.hw
  fw := by rw [h4]; exact h.fw
  sn := by rw [h4]; exact h.sn
  mf := by rw [h4]; exact h.mf
  ad := by rw [h4]; exact h.ad
  arbitrary := by rw [h5]; exact h.arbitrary
  key := by rw [h6]; exact h.key
  hashList := h7
  oid := by rw [h8]; exact h.oid
  sig := by rw [h10]; exact h9
  maxSig := by rw [h10]; exact h.maxSig
  hashType := h11
  axis := by rw [h12]; exact h.axis

/-- Holds for the session after a call, whether it fails or not. -/
def Res.All {α : Type} (P : Signer → Prop) : Res Signer α → Prop
  | .ok s _ => P s
  | .err s _ => P s
  | .ub _ => True

theorem Res.All.andThen {α β : Type} {P : Signer → Prop} {r : Res Signer α} {f : Signer → α → Res Signer β}
    (h : r.All P) (g : ∀ s a, P s → (f s a).All P) : (r.andThen f).All P := by
  cases r with
  | ok s a => exact g s a h
  | err s e => exact h
  | ub u => trivial

/-- Fetching a SEI: only the buffer, the signature and the request for recurrent data change. -/
def FetchInv (s s' : Signer) : Prop :=
  CompletedOnly s s' ∧ (s.e.signature.length ≤ s.e.maxSignature → s'.e.signature.length ≤ s.e.maxSignature)

theorem FetchInv.refl (s : Signer) : FetchInv s s := ⟨rfl, id⟩

theorem FetchInv.trans {a b c : Signer} (h : FetchInv a b) (g : FetchInv b c) : FetchInv a c := by
  refine ⟨h.1.trans g.1, fun hx => ?_⟩
  have hm : b.e.maxSignature = a.e.maxSignature := by have := h.1; unfold CompletedOnly at this; rw [this]
  have := g.2 (by rw [hm]; exact h.2 hx)
  rw [hm] at this; exact this

theorem completeSei_inv (s : Signer) : (completeSei s).All (FetchInv s) := by
  unfold completeSei
  dsimp only
  repeat' split
  all_goals first | trivial | exact ⟨rfl, id⟩

theorem completeSeis_inv (sigs : List SigAnswer) : ∀ s, (completeSeis s sigs).All (FetchInv s) := by
  induction sigs with
  | nil => intro s; exact .refl s
  | cons a sigs ih =>
    intro s
    cases a with
    | error e => exact .refl s
    | ok sig =>
      unfold completeSeis
      split
      · trivial
      · next hle =>
        generalize ht : ({ s with e := { s.e with signature := sig }, got := s.got ++ [sig] } : Signer) = t
        have h1 : FetchInv s t := by subst ht; exact ⟨rfl, fun _ => by show sig.length ≤ _; omega⟩
        have h2 := completeSei_inv t
        cases hr : completeSei t with
        | ub u => trivial
        | err v e => rw [hr] at h2; exact h1.trans h2
        | ok v x =>
          rw [hr] at h2
          have h3 : FetchInv s v := h1.trans h2
          simp only [Res.andThen_ok]
          have h4 := ih v
          cases hr2 : completeSeis v sigs with
          | ub u => trivial
          | err w e => rw [hr2] at h4; exact h3.trans h4
          | ok w y => rw [hr2] at h4; exact h3.trans h4

theorem shiftBuf_inv (s : Signer) (i : Nat) : (shiftBuf s i).All (FetchInv s) := by
  unfold shiftBuf
  repeat' split
  all_goals first | trivial | exact ⟨rfl, id⟩

theorem handOut_inv (s : Signer) (i : Nat) (copy : Bool) : (handOut s i copy).All (FetchInv s) := by
  unfold handOut
  repeat' split
  all_goals first
    | trivial
    | exact .refl s
    | (have h := shiftBuf_inv { s with completed := s.completed - 1 } i
       have h1 : FetchInv s { s with completed := s.completed - 1 } := ⟨rfl, id⟩
       cases hr : shiftBuf { s with completed := s.completed - 1 } i with
       | ub u => trivial
       | err v e => rw [hr] at h; exact h1.trans h
       | ok v x => rw [hr] at h; exact h1.trans h)

theorem Res.All.chain {α β : Type} {s : Signer} {r : Res Signer α} {f : Signer → α → Res Signer β}
    (h : r.All (FetchInv s)) (g : ∀ t a, (f t a).All (FetchInv t)) : (r.andThen f).All (FetchInv s) := by
  refine Res.All.andThen h (fun t a ht => ?_)
  have := g t a
  cases hr : f t a with
  | ub u => trivial
  | err v e => rw [hr] at this; exact ht.trans this
  | ok v x => rw [hr] at this; exact ht.trans this

theorem getSei_inv (s : Signer) (copy : Bool) (peek : Option Bytes) (sigs : List SigAnswer) :
    (getSei s copy peek sigs).All (FetchInv s) := by
  unfold getSei
  refine (completeSeis_inv sigs s).chain (fun t _ => ?_)
  repeat' split
  all_goals first
    | trivial
    | exact .refl t
    | exact handOut_inv t 0 copy
    | exact ⟨rfl, id⟩

theorem Res.All.intoRoom {P : Signer → Prop} {r : Res Signer (Option Bytes)} (n : Nat) (h : r.All P) :
    (intoRoom n r).All P := by
  unfold SV.intoRoom
  split
  · split
    · trivial
    · exact h
  · exact h

theorem getPrepend_inv (s : Signer) (a b : List SigAnswer) : (getPrepend s a b).All (FetchInv s) := by
  unfold getPrepend getLatest
  refine (completeSeis_inv a s).chain (fun t _ => ?_)
  repeat' split
  all_goals first
    | trivial
    | exact .refl t
    | skip
  refine Res.All.intoRoom _ ?_
  refine (completeSeis_inv b t).chain (fun v _ => ?_)
  split
  · exact .refl v
  · exact handOut_inv v _ true

theorem FetchInv.st {s0 s s' : Signer} {x : HistSt} (h : FetchInv s s') (g : St L s0 x s) : St L s0 x s' := by
  obtain ⟨h1, h2⟩ := h
  have hsig := h2 g.fits.sig
  unfold CompletedOnly at h1
  generalize s'.e.signature = sg at h1 hsig
  generalize s'.e.recurrent = rc at h1
  generalize s'.buf = b at h1
  generalize s'.idx = i at h1
  generalize s'.completed = c at h1
  generalize s'.got = gt at h1
  generalize s'.avoidCheck = ac at h1
  subst h1
  refine ⟨g.same.trans ⟨rfl, rfl, rfl, rfl, rfl, rfl, rfl, rfl, rfl, rfl, rfl, rfl, rfl, rfl, rfl, fun _ => ⟨rfl, rfl⟩⟩, g.hist, ?_⟩
  exact g.fits.change rfl g.fits.linked g.fits.gop rfl rfl rfl g.fits.hashList rfl hsig rfl g.fits.hashType rfl

theorem setting_st (hs : Hashing) {s0 s : Signer} {x : HistSt} (y : Setting) (hy : Regular (.set y))
    (hl : L → KeepsLevel (.set y)) (g : St L s0 x s) :
    (applySetting hs s y).All (St L s0 x) := by
  have f := g.fits
  have hsame : ∀ t : Signer, Same L s t → Same L s0 t := fun t ht => g.same.trans ht
  cases y <;> simp only [Regular] at hy <;> unfold applySetting <;> (try dsimp only) <;> (repeat' split)
  all_goals first
    | exact g
    | exact ⟨hsame _ ⟨rfl, rfl, rfl, rfl, rfl, rfl, rfl, rfl, rfl, rfl, rfl, rfl, rfl, rfl, rfl, fun _ => ⟨rfl, rfl⟩⟩, g.hist,
        f.change rfl f.linked f.gop rfl rfl rfl f.hashList rfl f.sig rfl f.hashType rfl⟩
    | exact ⟨hsame _ ⟨rfl, rfl, rfl, rfl, rfl, rfl, rfl, rfl, rfl, rfl, rfl, rfl, rfl, rfl, rfl,
        fun hx => False.elim (hl hx)⟩, g.hist, f.change rfl f.linked f.gop rfl rfl rfl f.hashList rfl f.sig rfl f.hashType rfl⟩
    | skip
  obtain ⟨h1, h2, h3, h4, h5⟩ := hy
  exact ⟨hsame _ ⟨rfl, rfl, rfl, rfl, rfl, rfl, rfl, rfl, rfl, rfl, rfl, rfl, rfl, rfl, rfl, fun _ => ⟨rfl, rfl⟩⟩, g.hist,
    ⟨f.hashSize, f.linked, f.gop, h1, h2, h3, h4, h5, f.arbitrary, f.key, f.hashList, f.oid, f.sig, f.maxSig, f.hashType, f.axis⟩⟩

/-! ### Adding a NAL unit -/

/-- `hash_and_add` on a complete protected NAL unit. -/
def withHash (s : Signer) (f : Bool) (v : Bytes) : Signer :=
  let t := checkAndCopy { s with naluHash := v, ref := if f then v else s.ref, hasRef := f || s.hasRef } v
  { t with e := { t.e with numNalus := t.e.numNalus + 1 } }

theorem hashAndAdd_piece (hs : Hashing) (s s' : Signer) (n : Nalu) (u : Unit) (h1 : n.isHashable = true) (h2 : n.gopSei = false)
    (h : hashAndAdd hs s n true true = .ok s' u) :
    s' = withHash s (n.firstInGop && !s.hasRef) (if (n.firstInGop && !s.hasRef) = true then hs.H s.e.oid n.hashable
      else hs.H s.e.oid (s.ref ++ hs.H s.e.oid n.hashable)) := by
  unfold hashAndAdd at h
  simp only [h1, h2, Bool.not_true, Bool.false_eq_true, if_false, Bool.and_false] at h
  rw [Res.onErr_eq_ok] at h
  obtain ⟨t, v, h3, h4⟩ := Res.andThen_eq_ok h
  by_cases hf : (n.firstInGop && !s.hasRef) = true
  · rw [if_pos hf] at h3
    simp only [hf, if_true, Bool.true_or, withHash]
    unfold hashAndCopyToRef simplyHash hashData at h3
    rw [if_pos rfl] at h3
    split at h3
    · cases h3
    · simp only [Res.ofOut_ok, Res.andThen_ok] at h3
      cases h3; cases h4; rfl
  · rw [if_neg hf] at h3
    simp only [hf, Bool.false_or, withHash]
    unfold hashWithReference simplyHash hashData at h3
    rw [if_pos rfl] at h3
    split at h3
    · cases h3
    · simp only [Res.ofOut_ok, Res.andThen_ok] at h3
      split at h3
      · cases h3
      · simp only [Res.ofOut_ok] at h3
        cases h3; cases h4; rfl

/-- Whether the current GOP has an intra picture. -/
def seen (cur : List Piece) : Bool := cur.any (·.first)

/-- A SEI generated in a session that agrees with `s0` in what does not change. -/
structure GenFrom (L : Prop) (s0 : Signer) (g : Gen) : Prop where
  codec : g.o.codec = s0.codec
  epb : g.o.epb = s0.epb
  golden : g.o.golden = false
  usingGolden : g.o.usingGolden = s0.usingGolden
  vendor : g.o.vendor = s0.vendor
  off : g.o.gopHashOff = s0.gopHashOff
  oid : g.e.oid = s0.e.oid
  hashSize : g.e.hashSize = s0.e.hashSize
  maxSig : g.e.maxSignature = s0.e.maxSignature
  key : g.e.publicKey = s0.e.publicKey
  hashType : g.e.hashType = 1
  fits : Fits g.e
  lvl : L → g.e.frameLevel = s0.e.frameLevel ∧ g.o.maxPayload = s0.maxPayload

/-- The hash list of a GOP. -/
def listOf (hs : Hashing) (s0 : Signer) (cur : List Piece) : Option Bytes :=
  if cur.length * s0.e.hashSize ≤ s0.listCap then some (pieceHashes (hs.H s0.e.oid) s0.ref cur).flatten else none

/-- What the session knows of the current GOP. -/
structure Part (L : Prop) (hs : Hashing) (s0 : Signer) (cur : List Piece) (s : Signer) : Prop where
  same : Same L s0 s
  fits : Fits s.encNow
  list : s.e.hashList = listOf hs s0 cur
  num : s.e.numNalus = UInt16.ofNat cur.length
  hasRef : s.hasRef = seen cur
  prim : cur ≠ [] → s.primary = .open (pieceHashes (hs.H s0.e.oid) s0.ref cur).flatten

theorem seen_snoc (cur : List Piece) (p : Piece) : seen (cur ++ [p]) = (seen cur || p.first) := by
  simp [seen]

theorem listOf_snoc {hs : Hashing} {s0 : Signer} (hlen : ∀ x, (hs.H s0.e.oid x).length = s0.e.hashSize) (cur : List Piece)
    (p : Piece) : listOf hs s0 (cur ++ [p]) = match listOf hs s0 cur with
      | some l => if l.length + s0.e.hashSize > s0.listCap then none
        else some (l ++ if p.first then hs.H s0.e.oid p.bytes
          else hs.H s0.e.oid (refAfter (hs.H s0.e.oid) s0.ref cur ++ hs.H s0.e.oid p.bytes))
      | none => none := by
  unfold listOf
  rw [pieceHashes_snoc, List.length_append, List.length_singleton, Nat.add_mul, Nat.one_mul, List.flatten_append,
    List.flatten_singleton]
  have hf := pieceHashes_flatten hlen s0.ref cur
  by_cases h1 : cur.length * s0.e.hashSize + s0.e.hashSize ≤ s0.listCap
  · have h2 : cur.length * s0.e.hashSize ≤ s0.listCap := by omega
    rw [if_pos h1, if_pos h2]
    dsimp only
    have h3 : ¬ (pieceHashes (hs.H s0.e.oid) s0.ref cur).flatten.length + s0.e.hashSize > s0.listCap := by rw [hf]; omega
    rw [if_neg h3]
  · rw [if_neg h1]
    by_cases h2 : cur.length * s0.e.hashSize ≤ s0.listCap
    · rw [if_pos h2]
      dsimp only
      rw [if_pos (by rw [hf]; omega)]
    · rw [if_neg h2]

theorem listOf_empty {hs : Hashing} {s0 : Signer} (hlen : ∀ x, (hs.H s0.e.oid x).length = s0.e.hashSize)
    (hpos : 1 ≤ s0.e.hashSize) (cur : List Piece) : listOf hs s0 cur = some [] ↔ cur = [] := by
  constructor
  · intro h
    unfold listOf at h
    split at h
    · have hf := pieceHashes_flatten hlen s0.ref cur
      simp only [Option.some.injEq] at h
      rw [h] at hf
      cases cur with
      | nil => rfl
      | cons a l =>
        simp only [List.length_nil, List.length_cons, Nat.add_mul, Nat.one_mul] at hf
        omega
    · cases h
  · rintro rfl; simp [listOf, pieceHashes]

theorem listOf_cap {hs : Hashing} {s0 : Signer} (hlen : ∀ x, (hs.H s0.e.oid x).length = s0.e.hashSize)
    (cur : List Piece) (l : Bytes) (h : listOf hs s0 cur = some l) : l.length ≤ s0.listCap := by
  unfold listOf at h
  split at h
  · cases h
    rw [pieceHashes_flatten hlen]; assumption
  · cases h

/-- Adding a NAL unit to the current GOP. -/
theorem add_part {hs : Hashing} {s0 : Signer} (hf : Fresh hs s0) {s s' : Signer} {cur : List Piece} (p : Piece) (n : Nalu)
    (u : Unit) (hp : Part L hs s0 cur s) (h1 : n.isHashable = true) (h2 : n.gopSei = false) (h3 : n.hashable = p.bytes)
    (h4 : n.firstInGop = p.first) (h5 : p.first = true → seen cur = false)
    (h6 : p.first = false → s.ref = refAfter (hs.H s0.e.oid) s0.ref cur) (h : hashAndAdd hs s n true true = .ok s' u) :
    Part L hs s0 (cur ++ [p]) s' ∧ s'.ref = refAfter (hs.H s0.e.oid) s0.ref (cur ++ [p]) ∧
    (p.first = true → s'.naluHash = hs.H s0.e.oid p.bytes) ∧ s'.e.gopCounter = s.e.gopCounter ∧
    s'.e.linkedHash = s.e.linkedHash ∧ s'.linkedNew = s.linkedNew ∧ s'.seiEnabled = s.seiEnabled ∧
    s'.e.timestamp = s.e.timestamp ∧ s'.lastIsLast = s.lastIsLast ∧ s'.signed = s.signed ∧
    s'.e.hashType = s.e.hashType := by
  have hs' := hashAndAdd_piece hs s s' n u h1 h2 h
  have hlen := hf.len
  have hfr : (n.firstInGop && !s.hasRef) = p.first := by
    rw [h4, hp.hasRef]
    cases hpf : p.first
    · rfl
    · rw [h5 hpf]; rfl
  rw [h3, hfr, hp.same.oid] at hs'
  have hv : (if p.first then hs.H s0.e.oid p.bytes else hs.H s0.e.oid (s.ref ++ hs.H s0.e.oid p.bytes)) =
      if p.first then hs.H s0.e.oid p.bytes
          else hs.H s0.e.oid (refAfter (hs.H s0.e.oid) s0.ref cur ++ hs.H s0.e.oid p.bytes) := by
    cases hpf : p.first
    · simp only [Bool.false_eq_true, if_false]; rw [h6 hpf]
    · rfl
  rw [hv] at hs'
  generalize hvv : (if p.first then hs.H s0.e.oid p.bytes
          else hs.H s0.e.oid (refAfter (hs.H s0.e.oid) s0.ref cur ++ hs.H s0.e.oid p.bytes)) = v at hs' hv
  have hvl : v.length = s0.e.hashSize := by rw [← hvv]; split <;> exact hlen _
  have hvne : v ≠ [] := by
    intro hx; rw [hx] at hvl; have := hf.pos; simp at hvl; omega
  have hlist : s'.e.hashList = listOf hs s0 (cur ++ [p]) := by
    rw [listOf_snoc hlen, hvv, ← hp.list, hs', ← hp.same.hashSize, ← hp.same.listCap]
    rfl
  have hprim : s'.primary = .open (pieceHashes (hs.H s0.e.oid) s0.ref (cur ++ [p])).flatten := by
    rw [pieceHashes_snoc, hvv, List.flatten_append, List.flatten_singleton]
    have e1 : s'.primary = match (if s.e.hashList = some [] then Ctx.open [] else s.primary).update v with
      | .ok c => c
      | _ => (if s.e.hashList = some [] then Ctx.open [] else s.primary) := by rw [hs']; rfl
    have e2 : (if s.e.hashList = some [] then Ctx.open [] else s.primary) =
        Ctx.open (pieceHashes (hs.H s0.e.oid) s0.ref cur).flatten := by
      by_cases hc : cur = []
      · rw [if_pos (by rw [hp.list, listOf_empty hlen hf.pos]; exact hc), hc]; rfl
      · rw [if_neg (by rw [hp.list, listOf_empty hlen hf.pos]; exact hc), hp.prim hc]
    rw [e1, e2]
    unfold Ctx.update
    rw [if_neg hvne]
  refine ⟨⟨?_, ?_, hlist, ?_, ?_, fun _ => hprim⟩, ?_, ?_, ?_⟩
  · refine hp.same.trans ?_
    subst hs'
    exact ⟨rfl, rfl, rfl, rfl, rfl, rfl, rfl, rfl, rfl, rfl, rfl, rfl, rfl, rfl, rfl, fun _ => ⟨rfl, rfl⟩⟩
  · have hcap : ∀ l, s'.e.hashList = some l → l.length ≤ 19200 := fun l hl =>
      Nat.le_trans (listOf_cap hlen _ l (hlist ▸ hl)) hf.cap
    have f := hp.fits
    refine f.change ?_ ?_ ?_ ?_ ?_ ?_ hcap ?_ ?_ ?_ ?_ ?_
    all_goals subst hs'
    all_goals first | rfl | exact f.linked | exact f.gop | exact f.sig | exact f.hashType
  · rw [List.length_append, List.length_singleton]
    have : s'.e.numNalus = s.e.numNalus + 1 := by rw [hs']; rfl
    rw [this, hp.num]
    apply UInt16.toNat_inj.1
    simp [UInt16.toNat_add]
  · rw [seen_snoc]
    have : s'.hasRef = (p.first || s.hasRef) := by rw [hs']; rfl
    rw [this, hp.hasRef, Bool.or_comm]
  · have : s'.ref = if p.first then v else s.ref := by rw [hs']; rfl
    rw [this, refAfter_snoc]
    cases hpf : p.first
    · simp only [Bool.false_eq_true, if_false]; exact h6 hpf
    · simp only [if_true]; rw [← hvv, hpf]; rfl
  · intro hpf
    have : s'.naluHash = v := by rw [hs']; rfl
    rw [this, ← hvv, hpf]; rfl
  · rw [hs']; exact ⟨rfl, rfl, rfl, rfl, rfl, rfl, rfl, rfl⟩

/-- What the session remembers of the GOPs. -/
structure Cur (L : Prop) (hs : Hashing) (s0 : Signer) (g : List (List Piece) × List Piece) (s : Signer) : Prop where
  part : Part L hs s0 g.2 s
  ref : s.ref = refAfter (hs.H s0.e.oid) s0.ref g.2
  counter : s.e.gopCounter = s0.e.gopCounter + UInt32.ofNat g.1.length
  linked : s.e.linkedHash = match g.1.getLast? with
    | none => List.replicate s0.e.hashSize 0
    | some q => refAfter (hs.H s0.e.oid) s0.ref q
  linkedNew : s.linkedNew = if seen g.2 then refAfter (hs.H s0.e.oid) s0.ref g.2 else List.replicate s0.e.hashSize 0
  enabled : s.seiEnabled = seen g.2
  ts : s.e.timestamp = none
  last : s.lastIsLast = true

theorem Cur.of_st {hs : Hashing} {s0 s s' : Signer} {g : List (List Piece) × List Piece} (h : Cur L hs s0 g s)
    (h' : St L s0 s.hist s') : Cur L hs s0 g s' := by
  have e := h'.hist
  simp only [Signer.hist, HistSt.mk.injEq] at e
  obtain ⟨e1, e2, e3, e4, e5, e6, e7, e8, e9, e10, e11, -⟩ := e
  refine ⟨⟨h'.same, h'.fits, e1 ▸ h.part.list, e2 ▸ h.part.num, e7 ▸ h.part.hasRef, fun hx => e9 ▸ h.part.prim hx⟩,
    e6 ▸ h.ref, e3 ▸ h.counter, e4 ▸ h.linked, e5 ▸ h.linkedNew, e8 ▸ h.enabled, e10 ▸ h.ts, e11 ▸ h.last⟩

theorem Cur.st {hs : Hashing} {s0 s : Signer} {g : List (List Piece) × List Piece} (h : Cur L hs s0 g s) : St L s0 s.hist s :=
  ⟨h.part.same, rfl, h.part.fits⟩

/-- The history of an undisturbed session: the NAL units `ps` have been added and the SEIs `gens` generated. -/
structure Hist (L : Prop) (hs : Hashing) (s0 : Signer) (ps : List Piece) (gens : List Gen) (s : Signer) : Prop where
  cur : Cur L hs s0 (gops ps) s
  started : (gops ps).1 ≠ [] → seen (gops ps).2 = true
  count : gens.length = (gops ps).1.length
  typed : gens ≠ [] → s.e.hashType = 1
  gens : ∀ k g, gens[k]? = some g → ∃ gop nxt, (gops ps).1[k]? = some gop ∧
    (((gops ps).1 ++ [(gops ps).2])[k + 1]?.bind List.head?) = some nxt ∧
    Describes hs s0 k (if k = 0 then none else (gops ps).1[k - 1]?) gop nxt g ∧ GenFrom L s0 g

theorem Fresh.hist {hs : Hashing} {s : Signer} (h : Fresh hs s) : Hist L hs s [] [] s where
  cur := by
    refine ⟨⟨Same.refl s, h.fits, ?_, ?_, ?_, fun hx => absurd rfl hx⟩, ?_, ?_, ?_, ?_, ?_, ?_, ?_⟩
    · simp [h.list, gops, listOf, pieceHashes]
    · simp [h.num, gops]
    · simp [h.hasRef, gops, seen]
    · simp [gops, refAfter]
    · simp [gops]
    · simp [gops, h.linked]
    · simp [gops, h.linkedNew, seen]
    · simp [gops, h.enabled, seen]
    · exact h.ts
    · exact h.last
  started := fun hx => absurd rfl hx
  count := rfl
  typed := fun hx => absurd rfl hx
  gens := by simp

/-- Appending to the GOPs without finishing one. -/
theorem Hist.more {hs : Hashing} {s0 s s' : Signer} {ps : List Piece} {gens : List Gen} {p : Piece}
    (h : Hist L hs s0 ps gens s) (hg : gops (ps ++ [p]) = ((gops ps).1, (gops ps).2 ++ [p]))
    (hc : Cur L hs s0 ((gops ps).1, (gops ps).2 ++ [p]) s') (ht : s'.e.hashType = s.e.hashType) : Hist L hs s0 (ps ++ [p]) gens s' where
  cur := by rw [hg]; exact hc
  started := by
    rw [hg]
    intro hx
    rw [seen_snoc, h.started hx]; rfl
  count := by rw [hg]; exact h.count
  typed := fun hx => ht.trans (h.typed hx)
  gens := by
    intro k g hk
    obtain ⟨gop, nxt, h1, h2, h3⟩ := h.gens k g hk
    rw [hg]
    refine ⟨gop, nxt, h1, ?_, h3⟩
    have hlt : k < (gops ps).1.length := (List.getElem?_eq_some_iff.1 h1).1
    dsimp only
    by_cases hl : k + 1 < (gops ps).1.length
    · rw [List.getElem?_append_left hl] at h2 ⊢
      exact h2
    · have he : k + 1 = (gops ps).1.length := by omega
      rw [he, List.getElem?_append_right (Nat.le_refl _), Nat.sub_self] at h2 ⊢
      simp only [List.getElem?_cons_zero, Option.bind_some] at h2 ⊢
      cases hcur : (gops ps).2 with
      | nil => rw [hcur] at h2; cases h2
      | cons a l => rw [hcur] at h2; exact h2

/-- The step of an accepted NAL unit that is not protected. -/
theorem hist_skip {hs : Hashing} {s0 : Signer} {s s' : Signer} {ps : List Piece} {gens : List Gen}
    (h : Hist L hs s0 ps gens s) (h' : St L s0 s.hist s') : Hist L hs s0 ps gens s' :=
  ⟨h.cur.of_st h', h.started, h.count, fun hx => (congrArg HistSt.ht h'.hist).trans (h.typed hx), h.gens⟩

/-- What the calls before hashing leave alone. -/
theorem pre_st {hs : Hashing} {s0 s : Signer} {g : List (List Piece) × List Piece} (h : Cur L hs s0 g s) (n : Nalu) (sg : Option Gen)
    (gt : List Bytes) (st : Bool) (r : Bool) (fc : Nat) :
    St L s0 s.hist { s with
      lastNalu := n, lastIsLast := true, signed := sg, got := gt, started := st, frameCount := fc
      e := { s.e with recurrent := r } } := by
  have f := h.part.fits
  refine ⟨h.part.same.trans ⟨rfl, rfl, rfl, rfl, rfl, rfl, rfl, rfl, rfl, rfl, rfl, rfl, rfl, rfl, rfl, fun _ => ⟨rfl, rfl⟩⟩, ?_,
    f.change rfl f.linked f.gop rfl rfl rfl f.hashList rfl f.sig rfl f.hashType rfl⟩
  simp only [Signer.hist, h.last]

theorem countFrame_ok {s s' : Signer} {n : Nalu} {last : Bool} {u : Unit} (h : countFrame s n last = .ok s' u) :
    ∃ r fc, s' = { s with frameCount := fc, e := { s.e with recurrent := r } } := by
  unfold countFrame at h
  split at h
  · dsimp only at h
    split at h
    · split at h
      · cases h
      · cases h; exact ⟨true, s.frameCount + 1, rfl⟩
    · split at h
      · cases h
      · cases h; exact ⟨s.e.recurrent, s.frameCount + 1, rfl⟩
  · cases h; exact ⟨s.e.recurrent, s.frameCount, rfl⟩

/-- Generating the SEI of a GOP. -/
theorem endOfGop_ok {hs : Hashing} {s0 : Signer} (hf : Fresh hs s0) {s s' : Signer} {g : List (List Piece) × List Piece}
    (h : Cur L hs s0 g s) (hse : seen g.2 = true) (ts : Option Int64) (rc : Option Rc) (u : Unit) (hsg : s.signed = none)
    (hr : endOfGop hs s ts rc = .ok s' u) :
    Part L hs s0 [] s' ∧ s'.e.gopCounter = s0.e.gopCounter + UInt32.ofNat (g.1.length + 1) ∧ s'.linkedNew = s.linkedNew ∧
    s'.seiEnabled = true ∧ s'.e.timestamp = none ∧ s'.lastIsLast = true ∧ s'.e.hashType = 1 ∧
    ∃ x, s'.signed = some x ∧ (∀ nxt : Piece, nxt.ts = ts → Describes hs s0 g.1.length g.1.getLast? g.2 nxt x) ∧ GenFrom L s0 x := by
  have hne : g.2 ≠ [] := by intro hx; rw [hx] at hse; cases hse
  have hlen := hf.len
  unfold endOfGop at hr
  rw [h.enabled, hse, if_pos rfl] at hr
  dsimp only at hr
  have hprim : (stamp s ts).primary = .open (pieceHashes (hs.H s0.e.oid) s0.ref g.2).flatten := by
    have := h.part.prim hne
    cases ts <;> exact this
  rw [hprim] at hr
  have hoid : (stamp s ts).e.oid = s0.e.oid := by
    have := h.part.same.oid
    cases ts <;> exact this
  simp only [Ctx.final] at hr
  generalize hv : hs.H (stamp s ts).e.oid (pieceHashes (hs.H s0.e.oid) s0.ref g.2).flatten = v at hr
  rw [hoid] at hv
  have hvl : v.length = s0.e.hashSize := by rw [← hv]; exact hlen _
  generalize ht : ({ stamp s ts with primary := .done, e := { (stamp s ts).e with gopHash := v } } : Signer) = t at hr
  have htt : t = { s with primary := .done, e := { s.e with gopHash := v, timestamp := ts } } := by
    rw [← ht]
    cases ts with
    | none =>
      simp only [stamp]
      have := h.ts
      cases s with
      | mk a b => cases b; simp only at this; subst this; rfl
    | some x => rfl
  have f := h.part.fits
  have hft : Fits t.encNow := by
    rw [htt]
    exact f.change rfl f.linked (by show v.length = s.e.hashSize; rw [hvl, h.part.same.hashSize]) rfl rfl rfl f.hashList rfl f.sig rfl f.hashType rfl
  obtain ⟨t1, sl, h1, h2⟩ := Res.andThen_eq_ok hr
  obtain ⟨t2, u2, h3, h4⟩ := Res.andThen_eq_ok h2
  rcases generateSei_eq hs t rc hft with ⟨-, hx⟩ | ⟨-, ⟨_, -, hx⟩ | ⟨_, -, hx⟩ | ⟨_, -, hx⟩ | ⟨-, hx⟩⟩
  · rw [hx] at h1; cases h1
  · rw [hx] at h1; cases h1
  · rw [hx] at h1; cases h1
  · rw [hx] at h1; cases h1
  · rw [hx] at h1
    cases h1
    have h5 : ∃ b i, t2 = { { afterGen hs t with signed := some ⟨t.opts, t.encNow, docHash hs t⟩ } with buf := b, idx := i } := by
      unfold addPayload at h3
      split at h3
      · cases h3; exact ⟨_, _, rfl⟩
      · split at h3
        · cases h3; exact ⟨_, _, rfl⟩
        · cases h3
    obtain ⟨b, i, rfl⟩ := h5
    cases h4
    have hgold : t.golden = false := by
      rw [htt]; show s.golden = false; rw [h.part.same.golden]; exact hf.golden
    have hsame : Same L s0 t := h.part.same.trans (by rw [htt]; exact ⟨rfl, rfl, rfl, rfl, rfl, rfl, rfl, rfl, rfl, rfl, rfl, rfl, rfl, rfl, rfl, fun _ => ⟨rfl, rfl⟩⟩)
    have hcnt : t.e.gopCounter = s0.e.gopCounter + UInt32.ofNat g.1.length := by rw [htt]; exact h.counter
    refine ⟨⟨?_, ?_, ?_, rfl, rfl, fun hx => absurd rfl hx⟩, ?_, ?_, rfl, rfl, ?_, rfl, _, rfl, ?_, ?_⟩
    · exact hsame.trans ⟨rfl, rfl, rfl, rfl, rfl, rfl, rfl, rfl, rfl, rfl, rfl, rfl, rfl, rfl, rfl, fun _ => ⟨rfl, rfl⟩⟩
    · exact hft.change rfl hft.linked hft.gop rfl rfl rfl (by intro l hl; cases hl; exact Nat.zero_le _) rfl hft.sig rfl hft.hashType rfl
    · show some [] = _
      simp [listOf, pieceHashes]
    · show (if t.golden then t.e.gopCounter else t.e.gopCounter + 1) = _
      rw [hgold, hcnt]
      simp only [Bool.false_eq_true, if_false]
      rw [UInt32.ofNat_add, ← UInt32.add_assoc]; rfl
    · show t.linkedNew = s.linkedNew
      rw [htt]
    · show t.lastIsLast = true
      rw [htt]; exact h.last
    · intro nxt hn
      refine ⟨?_, ?_, ?_, hcnt, ?_, ?_, ?_⟩
      · show t.e.gopHash = _
        rw [htt]; exact hv.symm
      · show t.e.numNalus = _
        rw [htt]; exact h.part.num
      · show t.e.linkedHash = _
        rw [htt]; exact h.linked
      · show t.e.hashList = _
        rw [htt]; exact h.part.list
      · show t.e.timestamp = _
        rw [htt, hn]
      · show docHash hs t = _
        unfold docHash
        rw [hsame.oid]; rfl
    · exact ⟨hsame.codec, hsame.epb, hgold, hsame.usingGolden, hsame.vendor, hsame.off, hsame.oid, hsame.hashSize, hsame.maxSig,
        hsame.key, rfl, hft, hsame.lvl⟩

theorem Part.of_st {hs : Hashing} {s0 s s' : Signer} {g : List (List Piece) × List Piece} (h : Cur L hs s0 g s)
    (h' : St L s0 s.hist s') : Part L hs s0 g.2 s' := (h.of_st h').part

theorem prev_eq {α : Type} (l : List α) (x : α) : (if l.length = 0 then none else (l ++ [x])[l.length - 1]?) = l.getLast? := by
  by_cases h : l.length = 0
  · rw [if_pos h, List.eq_nil_of_length_eq_zero h]; rfl
  · rw [if_neg h, List.getElem?_append_left (by omega), List.getLast?_eq_getElem?]

/-- One accepted call with a complete NAL unit. -/
theorem nalu_step {hs : Hashing} {s0 : Signer} (hf : Fresh hs s0) {s s' : Signer} {ps : List Piece} {gens : List Gen}
    (h : Hist L hs s0 ps gens s) (d : Bytes) (ts : Option Int64) (rc : Option Rc) (u : Unit)
    (hr : addNalu hs { s with signed := none, got := [] } d ts true rc = .ok s' u) :
    Hist L hs s0 (ps ++ (piece s0.codec (.nalu d ts true rc)).toList) (gens ++ s'.signed.toList) s' := by
  unfold addNalu at hr
  by_cases hd : d = []
  · rw [if_pos hd] at hr; cases hr
  rw [if_neg hd] at hr
  obtain ⟨s1, q, h1, hr⟩ := Res.andThen_eq_ok hr
  unfold nextPart at h1
  rw [show ({ s with signed := none, got := [] } : Signer).lastIsLast = true from h.cur.last, if_pos rfl] at h1
  cases hp : parseNalu d ({ s with signed := none, got := [] } : Signer).codec true false with
  | err e => rw [hp] at h1; cases h1
  | ub e => rw [hp] at h1; cases h1
  | ok n =>
  rw [hp] at h1
  cases h1
  unfold addParsed at hr
  obtain ⟨s2, u2, h2, hr⟩ := Res.andThen_eq_ok hr
  unfold prepare at h2
  split at h2
  · cases h2
  dsimp only at h2
  split at h2
  · cases h2
  cases h2
  split at hr
  · cases hr
  obtain ⟨s3, u3, h3, hr⟩ := Res.andThen_eq_ok hr
  obtain ⟨r, fc, h3⟩ := countFrame_ok h3
  have hst : St L s0 s.hist s3 := by rw [h3]; exact pre_st h.cur n none [] true r fc
  have hsg : s3.signed = none := by rw [h3]
  clear h3
  have hc3 := h.cur.of_st hst
  rw [show ({ s with signed := none, got := [] } : Signer).codec = s0.codec from h.cur.part.same.codec] at hp
  obtain ⟨p1, p2⟩ := parse_piece d s0.codec false n hd hp
  dsimp only at hr
  by_cases hP : Protected s0.codec ((body d).getD 0 0) ((body d).getD 1 0)
  · obtain ⟨a1, a2, a3, a4, -⟩ := p1 hP
    have hpc : piece s0.codec (.nalu d ts true rc) = some ⟨n.firstInGop, n.hashable, ts⟩ := by
      simp only [piece, if_pos hP, a3, a4]
    rw [hpc, Option.toList_some]
    cases hfirst : n.firstInGop with
    | false =>
      rw [hfirst] at hr
      simp only [Bool.false_and, Bool.false_eq_true, if_false, Res.andThen_ok] at hr
      obtain ⟨s4, u4, h4, h5⟩ := Res.andThen_eq_ok hr
      cases h5
      obtain ⟨b1, b2, -, b4, b5, b6, b7, b8, b9, b10, b11⟩ :=
        add_part hf ⟨false, n.hashable, ts⟩ n _ hc3.part a1 a2 rfl hfirst (by intro hx; cases hx) (fun _ => hc3.ref) h4
      rw [b10, hsg]
      simp only [Option.toList_none, List.append_nil]
      refine h.more ?_ ⟨b1, b2, b4.trans hc3.counter, b5.trans hc3.linked, ?_, ?_, b8.trans hc3.ts, b9.trans hc3.last⟩
          (b11.trans (congrArg HistSt.ht hst.hist))
      · rw [gops_snoc]; simp [addPiece]
      · rw [b6, hc3.linkedNew]
        simp only [seen_snoc, Bool.or_false, refAfter_snoc, Bool.false_eq_true, if_false]
      · rw [b7, hc3.enabled]
        simp only [seen_snoc, Bool.or_false]
    | true =>
      rw [hfirst] at hr
      simp only [Bool.true_and, if_true] at hr
      obtain ⟨s4, u4, h4, hr⟩ := Res.andThen_eq_ok hr
      obtain ⟨s5, u5, h5, h6⟩ := Res.andThen_eq_ok hr
      cases h6
      cases hse : seen (gops ps).2 with
      | false =>
        have hg1 : (gops ps).1 = [] := by
          by_cases hx : (gops ps).1 = []
          · exact hx
          · have := h.started hx; rw [hse] at this; cases this
        unfold endOfGop at h4
        rw [hc3.enabled, hse] at h4
        simp only [Bool.false_eq_true, if_false] at h4
        cases h4
        have hp4 : Part L hs s0 (gops ps).2 { s3 with seiEnabled := true } :=
          ⟨hc3.part.same.trans ⟨rfl, rfl, rfl, rfl, rfl, rfl, rfl, rfl, rfl, rfl, rfl, rfl, rfl, rfl, rfl, fun _ => ⟨rfl, rfl⟩⟩, hc3.part.fits, hc3.part.list,
            hc3.part.num, hc3.part.hasRef, hc3.part.prim⟩
        obtain ⟨b1, b2, b3, b4, b5, b6, b7, b8, b9, b10, b11⟩ :=
          add_part hf ⟨true, n.hashable, ts⟩ n _ hp4 a1 a2 rfl hfirst (fun _ => hse) (by intro hx; cases hx) h5
        have hz : s5.linkedNew = List.replicate s0.e.hashSize 0 := by
          rw [b6]; show s3.linkedNew = _
          rw [hc3.linkedNew, hse]; rfl
        have b10' : (updateLinked s5 s5.naluHash).signed = none := b10.trans hsg
        rw [b10']
        simp only [Option.toList_none, List.append_nil]
        refine h.more ?_ ⟨⟨?_, ?_, b1.list, b1.num, b1.hasRef, b1.prim⟩, b2, b4.trans hc3.counter, ?_, ?_, ?_, b8.trans hc3.ts, b9.trans hc3.last⟩
          (b11.trans (congrArg HistSt.ht hst.hist))
        · rw [gops_snoc]
          simp only [seen] at hse
          simp [addPiece, hse]
        · exact b1.same.trans ⟨rfl, rfl, rfl, rfl, rfl, rfl, rfl, rfl, rfl, rfl, rfl, rfl, rfl, rfl, rfl, fun _ => ⟨rfl, rfl⟩⟩
        · have f := b1.fits
          exact f.change rfl (by show s5.linkedNew.length = s5.e.hashSize; rw [hz, b1.same.hashSize, List.length_replicate]) f.gop rfl rfl rfl
            f.hashList rfl f.sig rfl f.hashType rfl
        · show s5.linkedNew = _
          rw [hz, hg1]; rfl
        · show s5.naluHash = _
          rw [b3 rfl]
          simp only [seen_snoc, Bool.or_true, if_true, refAfter_snoc]
        · show s5.seiEnabled = _
          rw [b7]
          simp only [seen_snoc, Bool.or_true]
      | true =>
        obtain ⟨c1, c2, c3, c4, c5, c6, ct, x, c7, c8, c9⟩ := endOfGop_ok hf hc3 hse ts rc _ hsg h4
        obtain ⟨b1, b2, b3, b4, b5, b6, b7, b8, b9, b10, b11⟩ :=
          add_part hf ⟨true, n.hashable, ts⟩ n _ c1 a1 a2 rfl hfirst (fun _ => rfl) (by intro hx; cases hx) h5
        simp only [List.nil_append] at b1 b2
        have hg : gops (ps ++ [⟨true, n.hashable, ts⟩]) = ((gops ps).1 ++ [(gops ps).2], [⟨true, n.hashable, ts⟩]) := by
          rw [gops_snoc]
          simp only [seen] at hse
          simp [addPiece, hse]
        have hz : s5.linkedNew = refAfter (hs.H s0.e.oid) s0.ref (gops ps).2 := by
          rw [b6, c3, hc3.linkedNew, hse]; rfl
        have b10' : (updateLinked s5 s5.naluHash).signed = some x := b10.trans c7
        rw [b10', Option.toList_some]
        refine ⟨?_, ?_, ?_, fun _ => b11.trans ct, ?_⟩
        · rw [hg]
          refine ⟨⟨?_, ?_, b1.list, b1.num, b1.hasRef, b1.prim⟩, b2, ?_, ?_, ?_, b7.trans c4, b8.trans c5, b9.trans c6⟩
          · exact b1.same.trans ⟨rfl, rfl, rfl, rfl, rfl, rfl, rfl, rfl, rfl, rfl, rfl, rfl, rfl, rfl, rfl, fun _ => ⟨rfl, rfl⟩⟩
          · have f := b1.fits
            exact f.change rfl (by
              show s5.linkedNew.length = s5.e.hashSize
              rw [hz, b1.same.hashSize]; exact refAfter_length hf.len _ hf.ref _) f.gop rfl rfl rfl
              f.hashList rfl f.sig rfl f.hashType rfl
          · show s5.e.gopCounter = _
            rw [b4, c2, List.length_append, List.length_singleton]
          · show s5.linkedNew = _
            rw [hz, List.getLast?_append]; rfl
          · show s5.naluHash = _
            rw [b3 rfl]; rfl
        · rw [hg]; intro _; rfl
        · rw [hg, List.length_append, List.length_append, h.count]; rfl
        · intro k g hk
          rw [hg]
          by_cases hkl : k < gens.length
          · rw [List.getElem?_append_left hkl] at hk
            obtain ⟨gop, nxt, e1, e2, e3, e4⟩ := h.gens k g hk
            have hlt : k < (gops ps).1.length := (List.getElem?_eq_some_iff.1 e1).1
            refine ⟨gop, nxt, ?_, ?_, ?_, e4⟩
            · rw [List.getElem?_append_left hlt]; exact e1
            · rw [List.getElem?_append_left (by simp; omega)]; exact e2
            · rw [List.getElem?_append_left (by omega)]; exact e3
          · have hkl' : k < (gens ++ [x]).length := (List.getElem?_eq_some_iff.1 hk).1
            have hke : k = gens.length := by simp at hkl'; omega
            rw [hke, List.getElem?_append_right (Nat.le_refl _), Nat.sub_self, List.getElem?_cons_zero] at hk
            cases hk
            rw [h.count] at hke
            refine ⟨(gops ps).2, ⟨true, n.hashable, ts⟩, ?_, ?_, ?_, c9⟩
            · rw [hke, List.getElem?_append_right (Nat.le_refl _), Nat.sub_self]; rfl
            · rw [hke, List.getElem?_append_right (by simp), List.length_append, List.length_singleton, Nat.sub_self]; rfl
            · have := c8 ⟨true, n.hashable, ts⟩ rfl
              rw [hke, prev_eq]
              exact this
  · obtain ⟨a1, a2⟩ := p2 hP
    have hpc : piece s0.codec (.nalu d ts true rc) = none := by simp only [piece, if_neg hP]
    have hh : n.isHashable = false := by
      cases hi : n.isHashable with
      | false => rfl
      | true => have := (a1 hi).1; cases this
    rw [a2] at hr
    simp only [Bool.false_and, Bool.false_eq_true, if_false, Res.andThen_ok, hashAndAdd, hh, Bool.not_false, if_true] at hr
    cases hr
    rw [hpc, hsg, Option.toList_none, Option.toList_none, List.append_nil, List.append_nil]
    exact hist_skip h hst

/-- One call. -/
theorem hist_step {hs : Hashing} {s0 : Signer} (hf : Fresh hs s0) {s s' : Signer} {ps : List Piece} {gens : List Gen} {o : Obs}
    (h : Hist L hs s0 ps gens s) (c : SCall) (hc : Regular c) (hl : L → KeepsLevel c) (ha : ∀ d ts l rc, c = .nalu d ts l rc → o.rc = none)
    (hr : signStep hs s c = .ok (s', o)) :
    Hist L hs s0 (ps ++ (piece s0.codec c).toList) (gens ++ o.signed.toList) s' := by
  unfold signStep at hr
  have hst0 : St L s0 s.hist { s with signed := none, got := [] } :=
    ⟨h.cur.part.same.trans ⟨rfl, rfl, rfl, rfl, rfl, rfl, rfl, rfl, rfl, rfl, rfl, rfl, rfl, rfl, rfl, fun _ => ⟨rfl, rfl⟩⟩, rfl, h.cur.part.fits⟩
  have other : ∀ r : Res Signer (Option Bytes), r.All (fun t => St L s0 s.hist t ∧ t.signed = none) → piece s0.codec c = none →
      observe r = .ok (s', o) → Hist L hs s0 (ps ++ (piece s0.codec c).toList) (gens ++ o.signed.toList) s' := by
    intro r h1 h2 h3
    rw [h2, Option.toList_none, List.append_nil]
    unfold observe at h3
    cases r with
    | ub u => cases h3
    | ok t b =>
      cases h3
      rw [show _ = none from h1.2, Option.toList_none, List.append_nil]
      exact hist_skip h h1.1
    | err t b =>
      cases h3
      rw [show _ = none from h1.2, Option.toList_none, List.append_nil]
      exact hist_skip h h1.1
  have fetch : ∀ r : Res Signer (Option Bytes), r.All (FetchInv { s with signed := none, got := [] }) →
      r.All (fun t => St L s0 s.hist t ∧ t.signed = none) := by
    intro r hx
    have key : ∀ t, FetchInv { s with signed := none, got := [] } t → St L s0 s.hist t ∧ t.signed = none := by
      intro t ht
      refine ⟨ht.st hst0, ?_⟩
      have := ht.1
      unfold CompletedOnly at this
      rw [this]
    cases r with
    | ub u => trivial
    | ok t b => exact key t hx
    | err t b => exact key t hx
  cases c with
  | nalu d ts l rc =>
    simp only [Regular] at hc
    subst hc
    have hrc := ha d ts true rc rfl
    cases hn : addNalu hs { s with signed := none, got := [] } d ts true rc with
    | ok t u =>
      simp only [signCall, plain, hn, Res.andThen_ok, observe] at hr
      cases hr
      exact nalu_step hf h d ts rc u hn
    | err t e =>
      simp only [signCall, plain, hn, Res.andThen_err, observe] at hr
      cases hr
      cases hrc
    | ub u =>
      simp only [signCall, plain, hn, Res.andThen_ub, observe] at hr
      cases hr
  | getSei a b c => exact other _ (fetch _ (getSei_inv _ a b c)) rfl hr
  | prepend a b => exact other _ (fetch _ (getPrepend_inv _ a b)) rfl hr
  | set y =>
    refine other (plain (applySetting hs _ y)) ?_ rfl hr
    have h1 := setting_st hs y hc hl hst0
    have h2 : (applySetting hs { s with signed := none, got := [] } y).All (fun t => t.signed = none) := by
      cases y <;> simp only [Regular] at hc <;> unfold applySetting <;> (try dsimp only) <;> (repeat' split)
      all_goals first | rfl | trivial
    unfold plain
    cases hx : applySetting hs { s with signed := none, got := [] } y with
    | ok t u => rw [hx] at h1 h2; exact ⟨h1, h2⟩
    | err t e => rw [hx] at h1 h2; exact ⟨h1, h2⟩
    | ub u => trivial
  | endOfStream _ _ => simp [Regular] at hc
  | golden _ => simp [Regular] at hc
  | reset => simp [Regular] at hc

theorem signRun_cons {hs : Hashing} {s s' : Signer} {c : SCall} {cs : List SCall} {os : List Obs}
    (h : signRun hs s (c :: cs) = .ok (s', os)) :
    ∃ t o os', signStep hs s c = .ok (t, o) ∧ signRun hs t cs = .ok (s', os') ∧ os = o :: os' := by
  unfold signRun at h
  cases h1 : signStep hs s c with
  | err e => rw [h1] at h; cases h
  | ub e => rw [h1] at h; cases h
  | ok x =>
    obtain ⟨t, o⟩ := x
    rw [h1] at h
    cases h2 : signRun hs t cs with
    | err e => simp [h2, bind, Out.bind] at h
    | ub e => simp [h2, bind, Out.bind] at h
    | ok y =>
      obtain ⟨s'', os'⟩ := y
      simp [h2, bind, Out.bind] at h
      obtain ⟨rfl, rfl⟩ := h
      exact ⟨t, o, os', rfl, h2, rfl⟩

/-- All calls. -/
theorem hist_run {hs : Hashing} {s0 : Signer} (hf : Fresh hs s0) (cs : List SCall) : ∀ {s s' : Signer} {ps : List Piece}
    {gens : List Gen} {os : List Obs}, Hist L hs s0 ps gens s → (∀ c ∈ cs, Regular c) → (L → ∀ c ∈ cs, KeepsLevel c) → signRun hs s cs = .ok (s', os) →
    Accepted cs os → Hist L hs s0 (ps ++ pieces s0.codec cs) (gens ++ os.filterMap Obs.signed) s' := by
  induction cs with
  | nil =>
    intro s s' ps gens os h _ _ hr _
    unfold signRun at hr
    cases hr
    simpa [pieces] using h
  | cons c cs ih =>
    intro s s' ps gens os h hc hl hr ha
    obtain ⟨t, o, os', h1, h2, rfl⟩ := signRun_cons hr
    have hn : ∀ d ts l rc, c = .nalu d ts l rc → o.rc = none := by
      rintro d ts l rc rfl
      exact ha.1
    have ha' : Accepted cs os' := by
      cases c with
      | nalu d ts l rc => exact ha.2
      | _ => exact ha
    have h3 := hist_step hf h c (hc c (List.mem_cons_self ..)) (fun hx => hl hx c (List.mem_cons_self ..)) hn h1
    have h4 := ih h3 (fun x hx => hc x (List.mem_cons_of_mem _ hx)) (fun hx y hy => hl hx y (List.mem_cons_of_mem _ hy)) h2 ha'
    have e1 : pieces s0.codec (c :: cs) = (piece s0.codec c).toList ++ pieces s0.codec cs := by
      unfold pieces
      rw [List.filterMap_cons]
      cases piece s0.codec c <;> rfl
    have e2 : (o :: os').filterMap Obs.signed = o.signed.toList ++ os'.filterMap Obs.signed := by
      rw [List.filterMap_cons]
      cases o.signed <;> rfl
    rw [e1, e2, ← List.append_assoc, ← List.append_assoc]
    exact h4

end SV
