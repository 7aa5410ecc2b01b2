import Verif.Proofs.FlowHash
import Verif.Proofs.FlowList
/-! Validation of an undisturbed stream: one round of the validation loop. -/
namespace SV
open Spec
namespace Validator

/-- The validator knows the algorithm and the key of the stream. -/
structure Knows (Γ : Scene) (s : Validator) : Prop where
  known : s.d.hashAlgoKnown = true
  size : s.d.hashSize = Γ.size
  typ : s.typ = Γ.oid
  oid : s.d.oid = Γ.oid
  has : s.d.hasPublicKey = true
  pub : s.d.publicKey = Γ.key
  key : s.key = some Γ.key
  same : s.rep.latest.keyChanged = false
  max : s.d.maxSignature = none ∨ s.d.maxSignature = some Γ.maxSig
  noList : Γ.lists = false → s.d.hashList = []

theorem Knows.alg {Γ : Scene} {s : Validator} (h : Knows Γ s) : Alg1 Γ s := ⟨h.known, h.size, h.typ⟩

theorem Knows.same_of {Γ : Scene} {s t : Validator} (h : Knows Γ s) (e1 : t.d = s.d) (e2 : t.typ = s.typ) (e3 : t.key = s.key)
    (e4 : t.rep.latest.keyChanged = false) : Knows Γ t :=
  ⟨e1 ▸ h.known, e1 ▸ h.size, e2.trans h.typ, e1 ▸ h.oid, e1 ▸ h.has, e1 ▸ h.pub, e3.trans h.key, e4, e1 ▸ h.max, e1 ▸ h.noList⟩

/-- The contents of a SEI. -/
structure SeiInfo where
  counter : UInt32
  num : UInt16
  linked : Bytes
  gopHash : Bytes
  signature : Bytes
  doc : Bytes
  list : Bytes

/-- The state of the decoders after a SEI. -/
structure Told (Γ : Scene) (i : SeiInfo) (d : DecState) : Prop where
  counter : d.gopCounter = i.counter
  num : d.numSent = i.num
  linked : buf Γ.size d.linkedHash = i.linked
  gopHash : buf Γ.size d.gopHash = i.gopHash
  signature : d.signature = i.signature
  max : d.maxSignature ≠ none
  list : i.list ≠ [] → d.hashList = i.list

/-- The TLVs of a SEI tell its contents. -/
def Tells (Γ : Scene) (i : SeiInfo) (mem : Bytes) (size : Nat) : Prop :=
  ∀ s, Knows Γ s → ∃ s', s.tlvDecode Γ.env mem size = .ok s' () ∧ Knows Γ s' ∧ Told Γ i s'.d

/-- The pending item of a SEI. -/
structure SeiItem (Γ : Scene) (i : SeiInfo) (z : Nat × Item) : Prop where
  nalu : ∃ n, z.2.nalu = some n ∧ n.gopSei = true ∧ n.isHashable = true ∧ n.valid > 0 ∧ n.golden = false ∧ n.firstInGop = false ∧ n.tlvSize ≠ 0 ∧
    Tells Γ i n.tlvMem n.tlvSize
  hash : buf Γ.size z.2.hash = Γ.H i.doc
  signature : i.signature ≠ []
  verify : Γ.env.verify Γ.key i.signature (Γ.H i.doc) = 1

theorem SeiItem.isSei {Γ : Scene} {i : SeiInfo} {z : Nat × Item} (h : SeiItem Γ i z) : z.2.isSei = true := by
  obtain ⟨n, hn, hg, -⟩ := h.nalu
  unfold Item.isSei
  rw [hn]; exact hg

/-! ### The list -/

/-- What a round does to an item: `A` are the addresses of the NAL units of the GOP, `b` is the first one of them and `a`
is the SEI. -/
def settled (A : List Nat) (b a : Nat) (x : Nat × Item) : Nat × Item :=
  if x.1 ∈ A then (x.1, { x.2 with used := true, status := .ok, linked := if x.1 = b then true else x.2.linked })
  else if x.1 = a then (x.1, { x.2 with decoded := true, status := .ok })
  else x

/-- The list before the statuses are given. -/
def flagged (A : List Nat) (b a : Nat) (l : NList) : NList :=
  (onA A (fun i => { i with used := true }) (l.set a fun i => { i with decoded := true })).set b fun i => { i with linked := true }

/-- An item before the statuses are given. -/
def flaggedItem (A : List Nat) (b a : Nat) (x : Nat × Item) : Nat × Item :=
  if x.1 ∈ A then (x.1, { x.2 with used := true, linked := if x.1 = b then true else x.2.linked })
  else if x.1 = a then (x.1, { x.2 with decoded := true })
  else x

theorem flagged_eq {A : List Nat} {b a : Nat} (l : NList) (ha : a ∉ A) (hb : b ∈ A) :
    flagged A b a l = l.map (flaggedItem A b a) := by
  unfold flagged NList.set onA
  rw [List.map_map, List.map_map]
  refine List.map_congr_left fun x _ => ?_
  unfold flaggedItem
  simp only [Function.comp]
  by_cases h1 : x.1 ∈ A
  · have h2 : x.1 ≠ a := fun e => ha (e ▸ h1)
    by_cases h3 : x.1 = b
    · simp only [if_neg h2, if_pos h1, if_pos h3]
    · simp only [if_neg h2, if_pos h1, if_neg h3]
  · have h3 : x.1 ≠ b := fun e => h1 (e ▸ hb)
    by_cases h2 : x.1 = a
    · have : a ≠ b := h2 ▸ h3
      simp only [h2, if_true, ha, if_false, this]
    · simp only [h2, h1, if_false, h3]

theorem settled_eq {A : List Nat} {b a : Nat} {l : NList} (ha : a ∉ A) (hu : ∀ x ∈ l, x.2.used = false)
    (hA : ∀ x ∈ l, x.1 ∈ A → x.2.status = .P) :
    NList.set ((l.map (flaggedItem A b a)).map (dyed .ok)) a (fun i => { i with status := .ok }) = l.map (settled A b a) := by
  unfold NList.set
  rw [List.map_map, List.map_map]
  refine List.map_congr_left fun x hx => ?_
  unfold flaggedItem settled dyed
  simp only [Function.comp]
  by_cases h1 : x.1 ∈ A
  · have h2 : x.1 ≠ a := fun e => ha (e ▸ h1)
    simp [h1, h2, hA x hx h1]
  · by_cases h2 : x.1 = a
    · simp [h2, ha, hu x hx]
    · simp [h1, h2, hu x hx]

theorem flagged_count {A : List Nat} {b a : Nat} {l : NList} (ha : a ∉ A) (hu : ∀ x ∈ l, x.2.used = false) :
    ((l.map (flaggedItem A b a)).filter fun x => x.2.used && decide (x.2.status = .P)).length =
    ((pending l).filter fun x => decide (x.1 ∈ A)).length := by
  unfold pending
  rw [List.filter_map, List.length_map, List.filter_filter]
  congr 1
  refine List.filter_congr fun x hx => ?_
  unfold flaggedItem
  simp only [Function.comp]
  by_cases h1 : x.1 ∈ A
  · simp [h1]
  · by_cases h2 : x.1 = a
    · simp [h2, ha, hu x hx]
    · simp [h1, h2, hu x hx]

theorem count_segment {l : NList} {xs ys : NList} (h : pending l = xs ++ ys) (w : (l.map Prod.fst).Nodup) :
    (pending l).filter (fun x => decide (x.1 ∈ xs.map Prod.fst)) = xs := by
  have hn : ((pending l).map Prod.fst).Nodup := by
    refine List.Nodup.sublist ?_ w
    exact (List.filter_sublist).map _
  rw [h] at hn ⊢
  rw [List.map_append, List.nodup_append] at hn
  rw [List.filter_append, List.filter_eq_self.2 (fun x hx => by simpa using ⟨x.2, hx⟩), List.filter_eq_nil_iff.2, List.append_nil]
  intro y hy hc
  rw [decide_eq_true_eq] at hc
  exact hn.2.2 _ hc _ (List.mem_map_of_mem hy) rfl

theorem settled_stats {A : List Nat} {b a : Nat} {l : NList} {x : Nat × Item} (hu : ∀ x ∈ l, x.2.used = false) (hx : x ∈ l)
    (hA : x.1 ∈ A) (hs : x.2.isSei = false) :
    (getStats (l.map (settled A b a))).invalid = 0 ∧ (getStats (l.map (settled A b a))).missing = 0 ∧
    (getStats (l.map (settled A b a))).hasValid = true := by
  have key : ∀ y ∈ l.map (settled A b a), y.2.used = true → y.2.status = .ok := by
    intro y hy
    obtain ⟨z, hz, rfl⟩ := List.mem_map.1 hy
    unfold settled
    by_cases h1 : z.1 ∈ A
    · simp [h1]
    · by_cases h2 : z.1 = a
      · simp [h2]; rw [← h2]; simp [h1]
      · simp [h1, h2, hu z hz]
  refine ⟨?_, ?_, ?_⟩
  · unfold getStats
    dsimp only
    rw [List.length_eq_zero_iff, List.filter_eq_nil_iff]
    intro y hy hc
    rw [Bool.and_eq_true] at hc
    rw [key y hy hc.1] at hc
    exact absurd hc.2 (by decide)
  · unfold getStats
    dsimp only
    rw [List.length_eq_zero_iff, List.filter_eq_nil_iff]
    intro y hy hc
    rw [Bool.and_eq_true] at hc
    rw [key y hy hc.1] at hc
    exact absurd hc.2 (by decide)
  · unfold getStats
    dsimp only
    rw [List.any_eq_true]
    refine ⟨settled A b a x, List.mem_map_of_mem hx, ?_⟩
    unfold settled
    rw [if_pos hA]
    show (true && decide (Status.ok = .ok) && !x.2.isSei) = true
    rw [hs]; rfl

/-! ### A round -/

/-- The number of a SEI is the next one, or the validator is not yet in step, and has seen no smaller number unless the compiler lets
integers overflow. -/
def InTurn (o : Overflow) (c : UInt32) (s : Validator) : Prop :=
  c = s.latestGop + 1 ∨ s.synced = false ∧ (c.toNat ≤ (s.latestGop + 1).toNat ∨ o ≠ .strict)

theorem InTurn.of_eq {o : Overflow} {c c' : UInt32} {s t : Validator} (h : InTurn o c s) (e1 : c' = c) (e2 : t.latestGop = s.latestGop) (e3 : t.synced = s.synced) : InTurn o c' t := by
  unfold InTurn
  rw [e1, e2, e3]; exact h

/-- There is a pending SEI `z` and a pending GOP `x :: xs` before all others. -/
structure Due1 (Γ : Scene) (i : SeiInfo) (s : Validator) (x : Nat × Item) (xs ys : NList) (z : Nat × Item) : Prop where
  knows : Knows Γ s
  wf : WF s.list s.brk
  pend : pending s.list = x :: xs ++ (ys ++ [z])
  first : x.2.isFirst = true
  rest : ∀ y ∈ xs, y.2.isFirst = false
  next : ∀ y t, ys = y :: t → y.2.isFirst = true
  plain : ∀ y ∈ x :: xs ++ ys, y.2.isSei = false ∧ ∃ n, y.2.nalu = some n ∧ (n.firstInGop = true → y.2.second.isSome = true)
  linked : x.2.linked = false
  sei : SeiItem Γ i z
  unused : ∀ y ∈ s.list, y.2.used = false
  signing : s.flags.signing = true
  hasSei : s.gop.hasSei = true
  linkLen : s.linked.length = 128
  primary : s.primary = none ∨ s.primary = some Γ.oid

/-- There is a pending SEI `z` for the oldest pending GOP `x :: xs`. -/
structure Due0 (Γ : Scene) (i : SeiInfo) (s : Validator) (x : Nat × Item) (xs ys : NList) (z : Nat × Item) : Prop extends Due1 Γ i s x xs ys z where
  decoded : z.2.decoded = false
  count : InTurn Γ.env.ov i.counter s

/-- The oldest pending GOP is the one that was signed. -/
structure Due (Γ : Scene) (i : SeiInfo) (s : Validator) (x : Nat × Item) (xs ys : NList) (z : Nat × Item) : Prop extends Due0 Γ i s x xs ys z where
  link : (s.linked.drop Γ.size).take Γ.size = i.linked ∨ (s.linked.drop Γ.size).take Γ.size = List.replicate Γ.size 0
  gopHash : i.gopHash = Γ.H ((x :: xs).flatMap (hashOf Γ.size))
  num : i.num.toNat ≤ xs.length + 1

theorem detectLost_sync (env : AuthEnv) {s : Validator} (h : InTurn env.ov s.d.gopCounter s) :
    s.detectLost env = .ok { s with gop := { s.gop with lost := false } } () := by
  unfold detectLost
  rcases h with h | ⟨h1, h2 | h2⟩
  · rw [h, Int.sub_self]
    have : add64 env.ov 0 9223372036854775807 = .ok 9223372036854775807 := by
      unfold add64; rfl
    dsimp only
    rw [this]
    rfl
  · have l1 := s.d.gopCounter.toNat_lt
    have l2 := (s.latestGop + 1).toNat_lt
    have : ∀ x : Int, -4294967296 ≤ x → x ≤ 0 → add64 env.ov x 9223372036854775807 = .ok (x + 9223372036854775807) := by
      intro x a b
      unfold add64
      rw [if_pos (by omega)]
    dsimp only
    rw [this _ (by omega) (by omega)]
    dsimp only
    rw [if_neg (by omega)]
    dsimp only
    rw [h1, Bool.and_false]
  · have : ∀ x y : Int, ∃ z, add64 env.ov x y = .ok z := by
      intro x y
      unfold add64
      split
      · exact ⟨_, rfl⟩
      · cases ho : env.ov with
        | strict => exact absurd ho h2
        | wrap => exact ⟨_, rfl⟩
        | exact => exact ⟨_, rfl⟩
    dsimp only
    obtain ⟨a, ha⟩ := this (s.d.gopCounter.toNat - (s.latestGop + 1).toNat) 9223372036854775807
    rw [ha]
    dsimp only
    have : ∃ z, (if a < 9223372036854775807 / 2 then Out.ok a else .ok ((s.d.gopCounter.toNat : Int) - (s.latestGop + 1).toNat)) = Out.ok z := by
      split <;> exact ⟨_, rfl⟩
    obtain ⟨z, hz⟩ := this
    rw [hz]
    dsimp only
    rw [h1, Bool.and_false]

variable {Γ : Scene} {i : SeiInfo} {s : Validator} {x z : Nat × Item} {xs ys : NList}

namespace Due1

theorem mem_z (h : Due1 Γ i s x xs ys z) : z ∈ s.list ∧ z.2.status = .P := by
  refine mem_pending.1 ?_
  rw [h.pend]; simp

theorem mem_seg (h : Due1 Γ i s x xs ys z) {y : Nat × Item} (hy : y ∈ x :: xs ++ ys) : y ∈ s.list ∧ y.2.status = .P := by
  refine mem_pending.1 ?_
  rw [h.pend, ← List.append_assoc]
  exact List.mem_append_left _ hy

/-- The addresses of the GOP. -/
abbrev A (_ : Due1 Γ i s x xs ys z) : List Nat := (x :: xs).map Prod.fst

theorem nodupPend (h : Due1 Γ i s x xs ys z) : ((x :: xs ++ (ys ++ [z])).map Prod.fst).Nodup := by
  rw [← h.pend]
  exact List.Nodup.sublist ((List.filter_sublist).map _) h.wf.nodup

theorem z_not (h : Due1 Γ i s x xs ys z) : z.1 ∉ (x :: xs).map Prod.fst := by
  have := h.nodupPend
  rw [List.map_append, List.nodup_append] at this
  intro hc
  exact this.2.2 _ hc _ (List.mem_map_of_mem (by simp)) rfl

theorem x_in (_ : Due1 Γ i s x xs ys z) : x.1 ∈ (x :: xs).map Prod.fst := by simp

theorem in_seg (h : Due1 Γ i s x xs ys z) {y : Nat × Item} (hy : y ∈ s.list) (ha : y.1 ∈ (x :: xs).map Prod.fst) : y ∈ x :: xs := by
  obtain ⟨q, hq, e⟩ := List.mem_map.1 ha
  rw [← WF.unique h.wf (h.mem_seg (List.mem_append_left _ hq)).1 hy e]
  exact hq

theorem is_z (h : Due1 Γ i s x xs ys z) {y : Nat × Item} (hy : y ∈ s.list) (ha : y.1 = z.1) : y = z :=
  WF.unique h.wf hy h.mem_z.1 ha

end Due1

/-- The oldest pending SEI is decoded. -/
theorem decodeNext_due (hΓ : Γ.Ok) (h : Due0 Γ i s x xs ys z) : ∃ t, Decoded s t ∧ Knows Γ t ∧ Told Γ i t.d ∧
    s.decodeNext Γ.env z = .ok { t with gop := { t.gop with lost := false }, list := t.list.set z.1 fun i => { i with decoded := true }, sigHash := ovl (Γ.H i.doc) t.sigHash } () := by
  obtain ⟨n, hn, -, -, -, -, -, hsz, ht⟩ := h.sei.nalu
  have hk : Knows Γ { s with rep := { s.rep with latest := { s.rep.latest with keyChanged := false } } } := h.knows.same_of rfl rfl rfl rfl
  obtain ⟨t, e, kt, tt⟩ := ht _ hk
  have hd := tlvDecode_decoded Γ.env { s with rep := { s.rep with latest := { s.rep.latest with keyChanged := false } } } n.tlvMem n.tlvSize
  rw [e] at hd
  have hd0 : Decoded s { s with rep := { s.rep with latest := { s.rep.latest with keyChanged := false } } } :=
    ⟨rfl, rfl, rfl, rfl, rfl, rfl, rfl, rfl, rfl, rfl, rfl, rfl, rfl, rfl, rfl, rfl, rfl, rfl, rfl, _, _, _, rfl⟩
  have hd' := hd0.trans hd
  refine ⟨t, hd', kt, tt, ?_⟩
  unfold decodeNext
  rw [h.decoded, hn]
  dsimp only
  unfold decodeSei
  rw [if_neg (by decide), if_neg hsz, e]
  simp only [Res.andThen_ok]
  rw [detectLost_sync Γ.env (h.count.of_eq tt.counter hd'.latestGop hd'.synced)]
  have := hΓ.le
  simp only [Res.andThen_ok, Bool.and_false]
  rw [if_neg (by rw [h.knows.size]; omega), if_neg (by decide), h.knows.size, h.sei.hash]

/-- The hash of the GOP is computed. -/
theorem prepareGopHash_due (hΓ : Γ.Ok) (h : Due1 Γ i s x xs ys z) {t : Validator} (hl : t.list = s.list.set z.1 fun i => { i with decoded := true })
    (hp : t.primary = s.primary) (ht : t.typ = Γ.oid) (hs : t.d.hashSize = Γ.size) :
    t.prepareGopHash Γ.env z.1 = .ok { t with primary := some Γ.oid, list := onA ((x :: xs).map Prod.fst) (fun i => { i with used := true }) t.list, computed := ovl (Γ.H ((x :: xs).flatMap (hashOf Γ.size))) t.computed } () := by
  have hle := hΓ.le
  have hz := h.z_not
  -- the pending items
  have hmem : ∀ y ∈ t.list, ∃ q ∈ s.list, y.1 = q.1 ∧ y.2.nalu = q.2.nalu ∧ y.2.status = q.2.status ∧ y.2.second = q.2.second ∧
      (y.1 ≠ z.1 → y = q) := by
    intro y hy
    rw [hl] at hy
    obtain ⟨q, hq, rfl⟩ := List.mem_map.1 hy
    refine ⟨q, hq, ?_⟩
    split
    · rename_i e; exact ⟨rfl, rfl, rfl, rfl, fun hc => absurd e hc⟩
    · exact ⟨rfl, rfl, rfl, rfl, fun _ => rfl⟩
  have hpend : pending t.list = x :: xs ++ (ys ++ [(z.1, { z.2 with decoded := true })]) := by
    have he : ∀ y ∈ x :: xs ++ ys, y.1 ≠ z.1 := by
      intro y hy e
      have hn := h.nodupPend
      rw [← List.append_assoc, List.map_append, List.nodup_append] at hn
      exact hn.2.2 _ (List.mem_map_of_mem hy) _ (List.mem_map_of_mem (f := Prod.fst) (List.mem_singleton_self z)) e
    have hst : ∀ l : NList, pending (l.set z.1 fun i => { i with decoded := true }) = (pending l).set z.1 fun i => { i with decoded := true } := by
      intro l
      induction l with
      | nil => rfl
      | cons q r ih =>
        unfold NList.set at ih ⊢
        rw [List.map_cons, pending_cons, pending_cons, ih]
        by_cases e1 : q.1 = z.1 <;> by_cases e2 : q.2.status = .P <;> simp [e1, e2]
    rw [hl, hst, h.pend, ← List.append_assoc, ← List.append_assoc]
    unfold NList.set
    rw [List.map_append, List.map_singleton, if_pos rfl]
    congr 1
    conv => rhs; rw [← List.map_id (x :: xs ++ ys)]
    exact List.map_congr_left fun y hy => if_neg (he y hy)
  have hseg : segFrom false t.list = x :: xs := by
    refine segment_pending hpend (h.plain x (by simp)).1 (fun y hy => ⟨(h.plain y (by simp [hy])).1, h.rest y hy⟩) ?_
    intro y u hy
    cases ys with
    | nil =>
      left
      have := (List.cons.inj hy).1
      rw [← this]
      exact h.sei.isSei
    | cons y' u' =>
      right
      have := (List.cons.inj hy).1
      rw [← this]
      exact h.next _ _ rfl
  have hwf : (t.list.map Prod.fst).Nodup := by
    rw [hl, set_addr]; exact h.wf.nodup
  obtain ⟨⟨l', acc⟩, e⟩ := gopLoop_ok (sei := z.1) hΓ.pos hΓ.le (l := t.list) 0 0 [] (by
    intro y hy hyp
    have hyp' : y ∈ pending t.list := mem_pending.2 ⟨hy, hyp⟩
    rw [hpend, ← List.append_assoc] at hyp'
    rcases List.mem_append.1 hyp' with hc | hc
    · exact (h.plain y hc).2
    · obtain ⟨n, hn, hn2⟩ := h.sei.nalu
      rw [List.mem_singleton.1 hc]
      exact ⟨n, hn, fun hf => by rw [hn2.2.2.2.2.1] at hf; cases hf⟩)
  have hsp := gopLoop_spec (h1 := by
      intro y hy _ ey
      obtain ⟨q, hq, e1, e2, -⟩ := hmem y hy
      have := h.is_z hq (e1.symm.trans ey)
      have hzs := h.sei.isSei
      unfold Item.isSei at hzs ⊢
      rw [e2, this]; exact hzs)
    (h2 := by
      intro y hy
      have hns := nextSei_pending (z := (z.1, { z.2 with decoded := true })) (xs := x :: xs ++ ys) (l := t.list) (by rw [hpend, ← List.append_assoc]) (fun q hq => (h.plain q hq).1) h.sei.isSei
      rw [hns] at hy
      rw [← Option.some.inj hy]) (Nat.zero_le _) (Nat.le_refl _) e
  have h0 : decide (0 < 0) = false := rfl
  rw [h0, hseg, markFrom_onA hwf, hseg] at hsp
  unfold prepareGopHash
  rw [if_neg (by rw [hs]; omega)]
  have hprim : t.primary.getD t.typ = Γ.oid := by
    rw [hp]
    rcases h.primary with e' | e'
    · rw [e', Option.getD_none, ht]
    · rw [e', Option.getD_some]
  dsimp only
  rw [hprim, hs, e]
  dsimp only
  rw [hsp.1, hsp.2.1, List.nil_append]
  rfl

/-- The state that is validated. -/
def toValidate (Γ : Scene) (i : SeiInfo) (c : Bytes) (A : List Nat) (a : Nat) (t : Validator) : Validator :=
  { t with gop := { t.gop with lost := false }, list := onA A (fun i => { i with used := true }) (t.list.set a fun i => { i with decoded := true }), sigHash := ovl (Γ.H i.doc) t.sigHash, primary := some Γ.oid, computed := ovl c t.computed, verified := 1 }

theorem prepare_due (hΓ : Γ.Ok) (h : Due0 Γ i s x xs ys z) : ∃ t, Decoded s t ∧ Knows Γ t ∧ Told Γ i t.d ∧
    s.prepare Γ.env = .ok (toValidate Γ i (Γ.H ((x :: xs).flatMap (hashOf Γ.size))) ((x :: xs).map Prod.fst) z.1 t) () := by
  obtain ⟨t, hd, kt, tt, e⟩ := decodeNext_due hΓ h
  refine ⟨t, hd, kt, tt, ?_⟩
  unfold prepare
  rw [nextSei_pending (z := z) (xs := x :: xs ++ ys) (by rw [h.pend, ← List.append_assoc]) (fun q hq => (h.plain q hq).1) h.sei.isSei]
  dsimp only
  rw [e]
  simp only [Res.andThen_ok]
  rw [detectLost_sync Γ.env (s := { t with gop := { t.gop with lost := false }, list := t.list.set z.1 fun i => { i with decoded := true }, sigHash := ovl (Γ.H i.doc) t.sigHash }) (h.count.of_eq tt.counter hd.latestGop hd.synced)]
  simp only [Res.andThen_ok]
  rw [prepareGopHash_due hΓ h.toDue1 (t := { t with gop := { t.gop with lost := false }, list := t.list.set z.1 fun i => { i with decoded := true }, sigHash := ovl (Γ.H i.doc) t.sigHash }) (by dsimp only; rw [hd.list]) hd.primary kt.typ kt.size]
  simp only [Res.andThen_ok]
  rw [if_neg (by rw [kt.has]; simp), if_pos (by rw [hd.gop]; exact h.hasSei)]
  unfold verifyHash
  dsimp only
  rw [if_neg (by
    rintro (hc | hc)
    · exact tt.max hc
    · rw [tt.signature] at hc; exact h.sei.signature hc), kt.key]
  dsimp only
  rw [kt.size, buf_ovl (hΓ.len _), tt.signature, h.sei.verify]
  unfold toValidate
  rw [kt.key]

theorem updateLinkLoop_ok {s : Validator} {l : NList} {q : Nat × Item} {n : Nalu} {b : Bytes} (hq : q ∈ l) (hn : q.2.nalu = some n) (hu : q.2.used = true)
    (hf : n.firstInGop = true) (hl : q.2.linked = false) (hs : q.2.second = some b)
    (h : ∀ y ∈ l, y.2.used = true → y ≠ q → ∃ m, y.2.nalu = some m ∧ m.firstInGop = false) :
    updateLinkLoop s l = .ok { s with linked := updateLinked s.d.hashSize s.linked (buf s.d.hashSize b), list := s.list.set q.1 fun i => { i with linked := true } } := by
  induction l with
  | nil => cases hq
  | cons y r ih =>
    unfold updateLinkLoop
    by_cases e : y = q
    · rw [e, hu, hn]
      dsimp only
      rw [hf, hl, hs]
      rfl
    · have hq' : q ∈ r := (List.mem_cons.1 hq).resolve_left fun e' => e e'.symm
      have ih := ih hq' fun w hw => h w (List.mem_cons_of_mem _ hw)
      cases hy : y.2.used with
      | false => exact ih
      | true =>
        obtain ⟨m, hm, hg⟩ := h y List.mem_cons_self hy e
        rw [hm]
        dsimp only
        rw [hg]
        exact ih

/-- What a round does. -/
structure Done (Γ : Scene) (i : SeiInfo) (s : Validator) (x : Nat × Item) (xs : NList) (z : Nat × Item) (s' : Validator) : Prop where
  knows : Knows Γ s'
  codec : s'.codec = s.codec
  brk : s'.brk = s.brk
  buddies : s'.buddies = s.buddies
  hasReport : s'.hasReport = s.hasReport
  started : s'.started = s.started
  legacy : s'.legacy = s.legacy
  list : s'.list = clearUsed (s.list.map (settled ((x :: xs).map Prod.fst) x.1 z.1))
  primary : s'.primary = some Γ.oid
  linkLen : s'.linked.length = 128
  link : (s'.linked.drop Γ.size).take Γ.size = hashOf Γ.size x
  latestGop : s'.latestGop = i.counter
  synced : s'.synced = true
  flags : s'.flags = { s.flags with first := false, hasAuth := true }
  acc : s'.rep.acc = s.rep.acc
  thisVersion : s'.rep.thisVersion = s.rep.thisVersion
  auth : s'.rep.latest.auth = .ok
  expected : s'.rep.latest.expected = i.num.toNat
  received : s'.rep.latest.received = xs.length + 1
  pending : s'.rep.latest.pending = numPending s'.list

theorem verdict_ok {st : Stats} (h1 : st.invalid = 0) (h2 : st.missing = 0) (h3 : st.hasValid = true) (first : Bool) (p : Bool × Int × Int) :
    verdict st first p = .ok := by
  have hj : judge st first p.2.1 p.1 = .ok := by
    unfold judge
    rw [h1, h2]
    have : ¬ (p.2.1 > 1 ∧ ((0 : Nat) : Int) ≥ p.2.1) := by omega
    by_cases q : p.2.1 > 1
    · have q' : ¬ ((0 : Nat) : Int) ≥ p.2.1 := fun hc => this ⟨q, hc⟩
      simp only [decide_eq_false q', Bool.and_false, Bool.false_eq_true, if_false]
      rfl
    · simp only [decide_eq_false q, Bool.and_false, Bool.false_and, Bool.false_eq_true, if_false]
      rfl
  unfold verdict
  dsimp only
  rw [hj, h3]
  simp

theorem validate_settled {u : Validator} {l : NList} {A : List Nat} {b a : Nat} (hu : u.list = l.map (flaggedItem A b a))
    (hv : u.verified = 1) (hl : u.gop.lost = false) (hg : u.gopHashOk = true) (hk : u.linkedOk = true)
    (hz : z ∈ l) (hza : z.1 = a) (hzp : z.2.status = .P) (hzs : nextSei u.list = some (flaggedItem A b a z)) (wf : (l.map Prod.fst).Nodup) (ha : a ∉ A)
    (hun : ∀ y ∈ l, y.2.used = false) (hA : ∀ y ∈ l, y.1 ∈ A → y.2.status = .P ∧ ∃ n, y.2.nalu = some n ∧ n.gopSei = false)
    {k : Nat} (hc : ((pending l).filter fun x => decide (x.1 ∈ A)).length = k) (hx : x ∈ l) (hxA : x.1 ∈ A) (hnum : u.d.numSent.toNat ≤ k) :
    u.validate = .ok { u with list := clearUsed (l.map (settled A b a)), latestGop := u.d.gopCounter, synced := true, rep := { u.rep with latest := concludeLatest u.rep.latest false .ok u.d.numSent.toNat k } } () := by
  have hst : setStatusLoop .ok u.list = .ok ((l.map (flaggedItem A b a)).map (dyed .ok), k) := by
    rw [setStatusLoop_map, hu, flagged_count ha hun, hc]
    intro y hy hyu hyp
    rw [hu] at hy
    obtain ⟨q, hq, rfl⟩ := List.mem_map.1 hy
    unfold flaggedItem at hyu ⊢
    by_cases h1 : q.1 ∈ A
    · rw [if_pos h1]; exact (hA q hq h1).2
    · rw [if_neg h1] at hyu
      by_cases h2 : q.1 = a
      · rw [if_pos h2] at hyu; dsimp only at hyu; rw [hun q hq] at hyu; cases hyu
      · rw [if_neg h2, hun q hq] at hyu; cases hyu
  have hfz : flaggedItem A b a z = (a, { z.2 with decoded := true }) := by
    unfold flaggedItem; rw [hza, if_neg ha, if_pos rfl]
  have hat : statusAt ((l.map (flaggedItem A b a)).map (dyed .ok)) a = some .P := by
    unfold statusAt
    have : ((l.map (flaggedItem A b a)).map (dyed .ok)).find? (fun x => decide (x.1 = a)) = some (a, { z.2 with decoded := true }) := by
      rw [List.map_map]
      have hfst : ∀ y : Nat × Item, ((dyed .ok ∘ flaggedItem A b a) y).1 = y.1 := by
        intro y
        have e1 : (flaggedItem A b a y).1 = y.1 := by unfold flaggedItem; split <;> (try split) <;> rfl
        have e2 : ∀ w, (dyed .ok w).1 = w.1 := by intro w; unfold dyed; split <;> rfl
        simp only [Function.comp, e2, e1]
      have hzz : (dyed .ok ∘ flaggedItem A b a) z = (a, { z.2 with decoded := true }) := by
        simp only [Function.comp, hfz]
        unfold dyed
        rw [if_neg (by simp [hun z hz])]
      clear hst hu hA hx hzs hc
      induction l with
      | nil => cases hz
      | cons y r ih =>
        rw [List.map_cons, List.find?_cons, hfst]
        rcases List.mem_cons.1 hz with rfl | hz'
        · rw [hza, decide_eq_true rfl, hzz]
        · rw [List.map_cons, List.nodup_cons] at wf
          have : y.1 ≠ a := fun e => wf.1 (by rw [e, ← hza]; exact List.mem_map_of_mem hz')
          rw [decide_eq_false this]
          exact ih hz' wf.2 (fun w hw => hun w (List.mem_cons_of_mem _ hw))
    rw [this, Option.map_some, hzp]
  have hset : u.setStatus .ok (some a) = .ok { u with list := l.map (settled A b a) } k := by
    unfold setStatus
    dsimp only
    rw [hst]
    dsimp only
    rw [if_pos hat, if_pos hv, settled_eq ha hun (fun y hy hyA => (hA y hy hyA).1)]
  obtain ⟨s1, s2, s3⟩ := settled_stats (a := a) (b := b) hun hx hxA (by
    obtain ⟨n, hn, hg⟩ := (hA x hx hxA).2
    unfold Item.isSei; rw [hn]; exact hg)
  have hws : u.withSei = .ok { u with list := l.map (settled A b a) } (false, (u.d.numSent.toNat : Int), (k : Int)) := by
    unfold withSei
    rw [hzs]
    dsimp only [Option.map_some]
    rw [if_pos hv, hg, hk, hfz]
    simp only [Bool.and_self, Bool.not_true, Bool.false_and]
    rw [if_neg (by decide), if_pos True.intro]
    unfold withSeiRest
    dsimp only
    rw [hset]
    simp only [Res.andThen_ok]
    cases hf : u.list.find? fun x => x.2.used with
    | none => rfl
    | some q =>
      dsimp only
      split
      · rfl
      · have hq1 := List.mem_of_find?_eq_some hf
        have hq2 := List.find?_some hf
        rw [hu] at hq1
        obtain ⟨w, hw, rfl⟩ := List.mem_map.1 hq1
        have : ∃ n, (flaggedItem A b a w).2.nalu = some n := by
          unfold flaggedItem at hq2 ⊢
          by_cases h1 : w.1 ∈ A
          · rw [if_pos h1]; obtain ⟨n, hn, -⟩ := (hA w hw h1).2; exact ⟨n, hn⟩
          · rw [if_neg h1] at hq2
            by_cases h2 : w.1 = a
            · rw [if_pos h2] at hq2; dsimp only at hq2; rw [hun w hw] at hq2; cases hq2
            · rw [if_neg h2, hun w hw] at hq2; cases hq2
        obtain ⟨n, hn⟩ := this
        rw [hn]
        dsimp only
        rw [addMissing_le _ (by omega)]
  unfold validate verifyGop
  rw [hl]
  simp only [Bool.false_and]
  rw [if_neg (by decide), hws]
  simp only [Res.andThen_ok]
  have hj : verdict (getStats (l.map (settled A b a))) u.flags.first (false, (u.d.numSent.toNat : Int), (k : Int)) = .ok := by
    exact verdict_ok s1 s2 s3 _ _
  unfold conclude
  dsimp only
  rw [hj]
  have hr1 : (u.flags.first && decide (Auth.ok ≠ Auth.ok)) = false := by simp
  rw [hr1]
  simp only [Bool.false_eq_true, if_false]
  rw [hl]
  cases u.flags.first <;> rfl

theorem validate_due {u : Validator} {l : NList} {A : List Nat} {b a : Nat} (hu : u.list = l.map (flaggedItem A b a))
    (hv : u.verified = 1) (hl : u.gop.lost = false) (hg : u.gopHashOk = true) (hk : u.linkedOk = true)
    (hz : z ∈ l) (hza : z.1 = a) (hzp : z.2.status = .P) (hzs : nextSei u.list = some (flaggedItem A b a z)) (wf : (l.map Prod.fst).Nodup) (ha : a ∉ A)
    (hun : ∀ y ∈ l, y.2.used = false) (hA : ∀ y ∈ l, y.1 ∈ A → y.2.status = .P ∧ ∃ n, y.2.nalu = some n ∧ n.gopSei = false)
    {k : Nat} (hc : ((pending l).filter fun x => decide (x.1 ∈ A)).length = k) (hx : x ∈ l) (hxA : x.1 ∈ A) (hnum : u.d.numSent.toNat ≤ k)
    (hkc : u.rep.latest.keyChanged = false) (hauth : u.rep.latest.auth = .signaturePresent) (he : u.rep.latest.expected = 0) (hr : u.rep.latest.received = 0) :
    u.validate = .ok { u with list := clearUsed (l.map (settled A b a)), latestGop := u.d.gopCounter, synced := true, rep := { u.rep with latest := { u.rep.latest with auth := .ok, expected := u.d.numSent.toNat, received := k } } } () := by
  rw [validate_settled hu hv hl hg hk hz hza hzp hzs wf ha hun hA hc hx hxA hnum]
  have : concludeLatest u.rep.latest false .ok (u.d.numSent.toNat : Int) (k : Int) = { u.rep.latest with auth := .ok, expected := u.d.numSent.toNat, received := k } := by
    unfold concludeLatest
    cases hL : u.rep.latest
    rw [hL] at he hr hauth hkc
    dsimp only at he hr hauth hkc
    subst he hr hauth hkc
    simp [worse, Auth.val]
  rw [this]

theorem gopHashOk_of (h : buf s.d.hashSize s.computed = buf s.d.hashSize s.d.gopHash) : s.gopHashOk = true := by
  unfold gopHashOk
  exact decide_eq_true h

theorem linkedOk_of (h : buf s.d.hashSize s.linked = buf s.d.hashSize s.d.linkedHash ∨ buf s.d.hashSize s.linked = List.replicate s.d.hashSize 0) : s.linkedOk = true := by
  unfold linkedOk
  dsimp only
  rcases h with h | h
  · rw [decide_eq_true h, Bool.or_true]
  · rw [decide_eq_true h, Bool.true_or]

theorem Due0.begin (h : Due0 Γ i s x xs ys z) : Due0 Γ i s.begin x xs ys z := by
  unfold Validator.begin
  split
  · exact h
  · exact ⟨⟨h.knows.same_of rfl rfl rfl h.knows.same, h.wf, h.pend, h.first, h.rest, h.next, h.plain, h.linked, h.sei, h.unused, h.signing, h.hasSei,
      h.linkLen, h.primary⟩, h.decoded, h.count⟩

/-- The state in which the validation of a GOP starts: what has been decoded is in `t`. -/
structure Front (Γ : Scene) (i : SeiInfo) (s : Validator) (x : Nat × Item) (xs ys : NList) (z : Nat × Item) (t : Validator) (L : Bytes) (u : Validator) : Prop where
  eq : u = { toValidate Γ i (Γ.H ((x :: xs).flatMap (hashOf Γ.size))) ((x :: xs).map Prod.fst) z.1 t with linked := L, list := s.list.map (flaggedItem ((x :: xs).map Prod.fst) x.1 z.1) }
  knows : Knows Γ t
  told : Told Γ i t.d
  linkOld : L.take Γ.size = (s.linked.drop Γ.size).take Γ.size
  linkNew : (L.drop Γ.size).take Γ.size = hashOf Γ.size x
  linkLen : L.length = 128
  codec : t.codec = s.codec
  brk : t.brk = s.brk
  buddies : t.buddies = s.buddies
  hasReport : t.hasReport = s.hasReport
  started : t.started = s.started
  legacy : t.legacy = s.legacy
  flags : t.flags = s.flags
  acc : t.rep.acc = s.rep.acc
  thisVersion : t.rep.thisVersion = s.rep.thisVersion
  auth : t.rep.latest.auth = .signaturePresent
  expected : t.rep.latest.expected = 0
  received : t.rep.latest.received = 0
  nextSei : nextSei u.list = some (flaggedItem ((x :: xs).map Prod.fst) x.1 z.1 z)

theorem round_front (hΓ : Γ.Ok) (h : Due0 Γ i s x xs ys z) (ha : s.flags.hasAuth = false) :
    ∃ t L u, Front Γ i s x xs ys z t L u ∧ s.round Γ.env = u.conduct.andThen fun s _ => .ok s.finish () := by
  have hb : s.begin = { s with rep := { s.rep with latest := { s.rep.latest with auth := .signaturePresent, expected := 0, received := 0, pending := -1 } } } := by
    unfold Validator.begin; rw [ha]; rfl
  obtain ⟨t, hd, kt, tt, e⟩ := prepare_due hΓ h.begin
  have hle := hΓ.le
  have hzn := h.z_not
  have hxi := h.x_in
  obtain ⟨kc, hts, ts, hlat⟩ := hd.latest
  have hlist : t.list = s.list := by rw [hd.list, hb]
  have hlinked : t.linked = s.linked := by rw [hd.linked, hb]
  -- the link
  obtain ⟨n, hn, hsec⟩ := (h.plain x (by simp)).2
  have hfn : n.firstInGop = true := by
    have := h.first
    unfold Item.isFirst at this
    rw [hn] at this; exact this
  obtain ⟨b, hbs⟩ := Option.isSome_iff_exists.1 (hsec hfn)
  have hxl := h.mem_seg (y := x) (by simp)
  have hxz : x.1 ≠ z.1 := fun e => hzn (e ▸ hxi)
  have hul : (toValidate Γ i (Γ.H ((x :: xs).flatMap (hashOf Γ.size))) ((x :: xs).map Prod.fst) z.1 t).list = onA ((x :: xs).map Prod.fst) (fun i => { i with used := true }) (s.list.set z.1 fun i => { i with decoded := true }) := by
    unfold toValidate
    dsimp only
    rw [hlist]
  have hlink := updateLinkLoop_ok (s := toValidate Γ i (Γ.H ((x :: xs).flatMap (hashOf Γ.size))) ((x :: xs).map Prod.fst) z.1 t) (l := (toValidate Γ i (Γ.H ((x :: xs).flatMap (hashOf Γ.size))) ((x :: xs).map Prod.fst) z.1 t).list)
    (q := (x.1, { x.2 with used := true })) (n := n) (b := b) (by
      rw [hul]
      refine List.mem_map.2 ⟨x, List.mem_map.2 ⟨x, hxl.1, if_neg hxz⟩, if_pos hxi⟩) hn rfl hfn h.linked hbs (by
      intro y hy hyu hne
      rw [hul] at hy
      obtain ⟨w, hw, rfl⟩ := List.mem_map.1 hy
      obtain ⟨v, hv, rfl⟩ := List.mem_map.1 hw
      by_cases e1 : v.1 = z.1
      · rw [if_pos e1] at hyu
        dsimp only at hyu
        rw [if_neg (e1 ▸ hzn)] at hyu
        dsimp only at hyu
        rw [h.unused v hv] at hyu; cases hyu
      · rw [if_neg e1] at hyu hne ⊢
        by_cases e2 : v.1 ∈ (x :: xs).map Prod.fst
        · rw [if_pos e2] at hne ⊢
          have hv' := h.in_seg hv e2
          rcases List.mem_cons.1 hv' with rfl | hv''
          · exact absurd rfl hne
          · obtain ⟨m, hm, -⟩ := (h.plain v (List.mem_append_left _ hv')).2
            refine ⟨m, hm, ?_⟩
            have := h.rest v hv''
            unfold Item.isFirst at this
            rw [hm] at this; exact this
        · rw [if_neg e2, h.unused v hv] at hyu; cases hyu)
  have hds : (toValidate Γ i (Γ.H ((x :: xs).flatMap (hashOf Γ.size))) ((x :: xs).map Prod.fst) z.1 t).d.hashSize = Γ.size := kt.size
  have hdl : (toValidate Γ i (Γ.H ((x :: xs).flatMap (hashOf Γ.size))) ((x :: xs).map Prod.fst) z.1 t).linked = s.linked := hlinked
  rw [hds, hdl] at hlink
  generalize hL : updateLinked Γ.size s.linked (buf Γ.size b) = L at hlink
  have hbl : (buf Γ.size b).length = Γ.size := by unfold buf; simp
  have hLt : L.take Γ.size = (s.linked.drop Γ.size).take Γ.size := by
    rw [← hL]
    unfold updateLinked
    have h1 : ((s.linked.drop Γ.size).take Γ.size).length = Γ.size := by
      rw [List.length_take, List.length_drop, h.linkLen]; omega
    rw [List.take_append_of_le_length (by simp only [List.length_take, List.length_append, h1, hbl]; omega), List.take_take, Nat.min_eq_left (by omega),
      List.take_append_of_le_length (by omega), List.take_of_length_le (by omega)]
  have hLd : (L.drop Γ.size).take Γ.size = hashOf Γ.size x := by
    rw [← hL]
    unfold updateLinked
    have h1 : ((s.linked.drop Γ.size).take Γ.size).length = Γ.size := by
      rw [List.length_take, List.length_drop, h.linkLen]; omega
    rw [List.take_of_length_le (i := 2 * Γ.size) (by rw [List.length_append, h1, hbl]; omega)]
    have h2 : List.drop Γ.size (((s.linked.drop Γ.size).take Γ.size ++ buf Γ.size b) ++ s.linked.drop (2 * Γ.size)) = buf Γ.size b ++ s.linked.drop (2 * Γ.size) := by
      conv => lhs; arg 1; rw [← h1]
      rw [List.append_assoc, List.drop_left]
    rw [h2]
    conv => lhs; arg 1; rw [← hbl]
    rw [List.take_left]
    unfold hashOf
    rw [h.first, if_pos rfl, hbs]
    rfl
  have hLl : L.length = 128 := by
    rw [← hL]
    unfold updateLinked
    have h1 : ((s.linked.drop Γ.size).take Γ.size).length = Γ.size := by
      rw [List.length_take, List.length_drop, h.linkLen]; omega
    simp only [List.length_append, List.length_take, List.length_drop, h1, hbl, h.linkLen]
    omega
  have hflag : NList.set (toValidate Γ i (Γ.H ((x :: xs).flatMap (hashOf Γ.size))) ((x :: xs).map Prod.fst) z.1 t).list x.1 (fun i => { i with linked := true }) = s.list.map (flaggedItem ((x :: xs).map Prod.fst) x.1 z.1) := by
    rw [hul]; exact flagged_eq s.list hzn hxi
  rw [hflag] at hlink
  refine ⟨t, L, _, ⟨rfl, kt, tt, hLt, hLd, hLl, ?_, ?_, ?_, ?_, ?_, ?_, ?_, ?_, ?_, ?_, ?_, ?_, ?_⟩, ?_⟩
  · rw [hd.codec, hb]
  · rw [hd.brk, hb]
  · rw [hd.buddies, hb]
  · rw [hd.hasReport, hb]
  · rw [hd.started, hb]
  · rw [hd.legacy, hb]
  · rw [hd.flags, hb]
  · rw [hd.acc, hb]
  · rw [hd.thisVersion, hb]
  · rw [hlat, hb]
  · rw [hlat, hb]
  · rw [hlat, hb]
  · dsimp only
    have hfp : pending (s.list.map (flaggedItem ((x :: xs).map Prod.fst) x.1 z.1)) = ((x :: xs ++ ys) ++ [z]).map (flaggedItem ((x :: xs).map Prod.fst) x.1 z.1) := by
      have hst : ∀ y : Nat × Item, (flaggedItem ((x :: xs).map Prod.fst) x.1 z.1 y).2.status = y.2.status := by
        intro y; unfold flaggedItem; split <;> (try split) <;> rfl
      have hp : (x :: xs ++ ys) ++ [z] = pending s.list := by rw [h.pend, ← List.append_assoc]
      rw [hp]
      unfold pending
      rw [List.filter_map]
      congr 1
      refine List.filter_congr fun y _ => ?_
      simp only [Function.comp, hst]
    rw [List.map_append, List.map_singleton] at hfp
    refine nextSei_pending hfp ?_ ?_
    · intro y hy
      obtain ⟨w, hw, rfl⟩ := List.mem_map.1 hy
      have := (h.plain w hw).1
      have hnl : (flaggedItem ((x :: xs).map Prod.fst) x.1 z.1 w).2.nalu = w.2.nalu := by
        unfold flaggedItem; split <;> (try split) <;> rfl
      unfold Item.isSei at this ⊢
      rw [hnl]; exact this
    · have := h.sei.isSei
      have hnl : (flaggedItem ((x :: xs).map Prod.fst) x.1 z.1 z).2.nalu = z.2.nalu := by
        unfold flaggedItem; split <;> (try split) <;> rfl
      unfold Item.isSei at this ⊢
      rw [hnl]; exact this
  · unfold round
    rw [e]
    simp only [Res.andThen_ok]
    rw [hlink]

theorem Due1.inA (h : Due1 Γ i s x xs ys z) : ∀ y ∈ s.list, y.1 ∈ (x :: xs).map Prod.fst → y.2.status = .P ∧ ∃ n, y.2.nalu = some n ∧ n.gopSei = false := by
  intro y hy hyA
  have hy' := List.mem_append_left ys (h.in_seg hy hyA)
  refine ⟨(h.mem_seg hy').2, ?_⟩
  obtain ⟨h1, m, hm, -⟩ := h.plain y hy'
  refine ⟨m, hm, ?_⟩
  unfold Item.isSei at h1
  rw [hm] at h1; exact h1

theorem round_due (hΓ : Γ.Ok) (h : Due Γ i s x xs ys z) (ha : s.flags.hasAuth = false) :
    ∃ s', s.round Γ.env = .ok s' () ∧ Done Γ i s x xs z s' := by
  obtain ⟨t, L, u, f, hr⟩ := round_front hΓ h.toDue0 ha
  have hle := hΓ.le
  have hLl := f.linkLen
  have hval := validate_due (z := z) (x := x) (u := u)
    (l := s.list) (A := (x :: xs).map Prod.fst) (b := x.1) (a := z.1) (k := xs.length + 1) (by rw [f.eq]) (by rw [f.eq]; rfl) (by rw [f.eq]; rfl)
    (gopHashOk_of (by
      rw [f.eq]
      show buf t.d.hashSize (ovl (Γ.H ((x :: xs).flatMap (hashOf Γ.size))) t.computed) = buf t.d.hashSize t.d.gopHash
      rw [f.knows.size, f.told.gopHash, buf_ovl (hΓ.len _), h.gopHash]))
    (linkedOk_of (by
      rw [f.eq]
      show buf t.d.hashSize L = buf t.d.hashSize t.d.linkedHash ∨ buf t.d.hashSize L = List.replicate t.d.hashSize 0
      have : buf Γ.size L = L.take Γ.size := by
        unfold buf
        rw [List.take_append_of_le_length (by omega)]
      rw [f.knows.size, f.told.linked, this, f.linkOld]
      exact h.link))
    h.mem_z.1 rfl h.mem_z.2 f.nextSei h.wf.nodup h.z_not h.unused h.inA
    (by rw [count_segment h.pend h.wf.nodup]; rfl)
    (h.mem_seg (y := x) (by simp)).1 h.x_in
    (by
      rw [f.eq]
      show t.d.numSent.toNat ≤ xs.length + 1
      rw [f.told.num]; exact h.num)
    (by rw [f.eq]; exact f.knows.same)
    (by rw [f.eq]; exact f.auth)
    (by rw [f.eq]; exact f.expected)
    (by rw [f.eq]; exact f.received)
  rw [hr]
  unfold conduct
  rw [if_pos (by rw [f.eq]; show t.flags.signing = true; rw [f.flags]; exact h.signing), hval]
  simp only [Res.andThen_ok]
  refine ⟨_, rfl, ?_⟩
  unfold Validator.finish
  rw [f.eq]
  refine ⟨f.knows.same_of rfl rfl rfl f.knows.same, f.codec, f.brk, f.buddies, f.hasReport, f.started, f.legacy, rfl, rfl, hLl, f.linkNew, f.told.counter, rfl, ?_, f.acc, f.thisVersion, rfl, ?_, ?_, rfl⟩
  · show { t.flags with first := !t.flags.signing, hasAuth := true } = _
    rw [f.flags, h.signing]; rfl
  · show ((t.d.numSent.toNat : Nat) : Int) = _
    rw [f.told.num]
  · dsimp only; rw [Int.natCast_add]; rfl

end Validator
end SV
