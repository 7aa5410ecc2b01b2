import Verif.Proofs.OldGop
import Verif.Proofs.FlowRound
/-! Validation of an undisturbed stream of the older format: one round of the validation loop. -/
namespace SV
open Spec
namespace Old
open Legacy
open Validator (Scene Knows Decoded)

variable {Γ : Scene}

/-- The contents of a SEI. -/
structure Info where
  counter : UInt32
  num : UInt16
  typ : UInt8
  list : Bytes
  signature : Bytes

/-- The state of the decoders after a SEI. -/
structure Told (i : Info) (d : DecState) : Prop where
  counter : d.gopCounter = i.counter
  num : d.numSent = i.num
  typ : d.hashType = i.typ
  signature : d.signature = i.signature
  max : d.maxSignature ≠ none
  list : i.typ = 1 → d.hashList = i.list

/-- The TLVs of a SEI tell its contents. -/
def Tells (Γ : Scene) (i : Info) (mem : Bytes) (size : Nat) : Prop :=
  ∀ v, Knows Γ v → ∃ v', Legacy.tlvDecode Γ.env v mem size = .ok v' () ∧ Knows Γ v' ∧ Told i v'.d

/-- The item of a SEI with these contents. -/
structure Msg (Γ : Scene) (i : Info) (doc : Bytes) (x : Nat × LItem) : Prop extends IsMsg Γ doc x where
  tells : ∀ n, x.2.nalu = some n → n.tlvSize ≠ 0 ∧ Tells Γ i n.tlvMem n.tlvSize
  decoded : x.2.decoded = false

/-- The value of a signature that is right or wrong. -/
def right (b : Bool) : Int := if b then 1 else 0

/-- A SEI signs the hashes `hs` of a GOP and the hash `h` of the first NAL unit of the next one if `b` is true, and otherwise its signature does not match
them; `doc` is its own contents. -/
structure Signs (Γ : Scene) (b : Bool) (hs : List Bytes) (h doc : Bytes) (i : Info) : Prop where
  num : b = true → i.num.toNat = hs.length + 1
  signature : i.signature ≠ []
  verify : i.typ = 1 ∧ (b = true ∧ i.list = (hs ++ [h]).flatten) ∧ Γ.env.verify Γ.key i.signature (Γ.H doc) = right b ∨
    i.typ = 0 ∧ Γ.size = 32 ∧ Γ.env.verify Γ.key i.signature (chain Γ (Γ.H [1]) (hs ++ [h, Γ.H doc])) = right b

/-- Verifying the signature has the result `v`. -/
structure Checks (Γ : Scene) (v : Int) (hs : List Bytes) (h doc : Bytes) (i : Info) : Prop where
  signature : i.signature ≠ []
  verify : i.typ = 1 ∧ Γ.env.verify Γ.key i.signature (Γ.H doc) = v ∨
    i.typ = 0 ∧ Γ.size = 32 ∧ Γ.env.verify Γ.key i.signature (chain Γ (Γ.H [1]) (hs ++ [h, Γ.H doc])) = v

theorem Signs.checks {b : Bool} {hs : List Bytes} {h doc : Bytes} {i : Info} (g : Signs Γ b hs h doc i) : Checks Γ (right b) hs h doc i :=
  ⟨g.signature, g.verify.imp (fun a => ⟨a.1, a.2.2⟩) id⟩

/-- What a round does not change. -/
structure Kept (s t : Legacy) : Prop where
  codec : t.v.codec = s.v.codec
  buddies : t.v.buddies = s.v.buddies
  hasRef : t.v.hasRef = s.v.hasRef
  acc : t.v.rep.acc = s.v.rep.acc
  thisVersion : t.v.rep.thisVersion = s.v.rep.thisVersion
  brk : s.brk ≤ t.brk

theorem Kept.refl (s : Legacy) : Kept s s := ⟨rfl, rfl, rfl, rfl, rfl, Nat.le_refl _⟩

theorem Kept.trans {a b c : Legacy} (h : Kept a b) (g : Kept b c) : Kept a c :=
  ⟨g.codec.trans h.codec, g.buddies.trans h.buddies, g.hasRef.trans h.hasRef, g.acc.trans h.acc, g.thisVersion.trans h.thisVersion, Nat.le_trans h.brk g.brk⟩

/-! ### Is a GOP pending? -/

/-- The scan has found nothing yet. -/
structure Calm (c : Validator.Scan) : Prop where
  ends : c.ends = 0
  sei : c.sei = false
  after : c.after = false
  last : c.last.getD false = false
  found : c.found = false

theorem scanStep_rests {c : Validator.Scan} {x : Nat × LItem} (h : Rests x) (e : c.ends = 0) (ha : c.after = false) (hf : c.found = false) : scanStep true c x.2 = c := by
  obtain ⟨n, hn, hs, hv⟩ := h.nalu
  unfold scanStep
  have h1 : (n.valid ≤ 0 ∨ n.isHashable = false) := by
    rcases hv with h | h
    · exact .inl (by omega)
    · exact .inr h
  have h2 : ¬ (x.2.status = Status.P ∧ n.isHashable = true) := fun hc => h.not hc.1
  simp only [hn, if_pos h1, if_neg h2, e, ha, hf]
  cases c; simp_all

theorem scanStep_waits {c : Validator.Scan} {x : Nat × LItem} {b : Bytes} (h : Waits Γ b x) (hc : Calm c) :
    scanStep true c x.2 = { c with last := some false } := by
  obtain ⟨n, hn, hv, hh, hs, hf⟩ := h.nalu
  have h1 : ¬ (n.valid ≤ 0 ∨ n.isHashable = false) := by
    rintro (h | h)
    · omega
    · rw [hh] at h; cases h
  have h3 : (n.firstInGop && !x.2.need) = false := by
    cases hx : n.firstInGop with
    | false => rfl
    | true => rw [hf hx]; rfl
  unfold scanStep
  simp only [hn, if_neg h1, if_pos (show x.2.status = Status.P ∧ n.isHashable = true from ⟨h.status, hh⟩), hs, h3, hc.ends, hc.sei, hc.after, hc.last, hc.found]
  cases c; have := hc.ends; have := hc.sei; have := hc.after; have := hc.found; simp_all

theorem scan_holds {hs : List Bytes} {pre : LList} (r : LList) (h : Holds Γ hs pre) {c : Validator.Scan} (hc : Calm c) :
    ∃ c', scan true (pre ++ r) c = scan true r c' ∧ Calm c' ∧ c'.hasSei = c.hasSei := by
  induction pre generalizing hs c with
  | nil => exact ⟨c, rfl, hc, rfl⟩
  | cons x pre ih =>
    rw [List.cons_append]
    conv => enter [1, c', 1, 1]; unfold scan
    rw [if_neg (by rw [hc.found]; decide)]
    rcases h with ⟨h1, h2⟩ | ⟨b, t, rfl, h1, h2⟩
    · rw [scanStep_rests h1 hc.ends hc.after hc.found]
      exact ih h2 hc
    · rw [scanStep_waits h1 hc]
      exact ih h2 ⟨hc.ends, hc.sei, hc.after, rfl, hc.found⟩

theorem scan_rests {post : LList} (r : LList) (h : ∀ x ∈ post, Rests x) {c : Validator.Scan} (e : c.ends = 0) (ha : c.after = false) (hf : c.found = false) :
    scan true (post ++ r) c = scan true r c := by
  induction post with
  | nil => rfl
  | cons x post ih =>
    rw [List.cons_append]
    conv => lhs; unfold scan
    rw [if_neg (by rw [hf]; decide), scanStep_rests (h x List.mem_cons_self) e ha hf]
    exact ih fun y hy => h y (List.mem_cons_of_mem _ hy)

theorem scanStep_msg {doc : Bytes} {c : Validator.Scan} {x : Nat × LItem} (h : IsMsg Γ doc x) (hc : Calm c) :
    scanStep true c x.2 = { c with hasSei := true, sei := true, last := some true } := by
  obtain ⟨n, hn, hv, hh, hs, -, hf⟩ := h.nalu
  have h1 : ¬ (n.valid ≤ 0 ∨ n.isHashable = false) := by
    rintro (h | h)
    · omega
    · rw [hh] at h; cases h
  unfold scanStep
  simp only [hn, if_neg h1, if_pos (show x.2.status = Status.P ∧ n.isHashable = true from ⟨h.status, hh⟩), hs, hf, hc.ends, hc.sei, hc.after, hc.last, hc.found]
  cases c; have := hc.ends; have := hc.sei; have := hc.after; have := hc.found; simp_all

/-- The SEI is the last protected NAL unit: nothing is pending, but it is after the next one. -/
theorem hasPending_msg {s : Legacy} {hs : List Bytes} {doc : Bytes} {pre post : LList} {xs : Nat × LItem} (hl : s.list = pre ++ xs :: post) (hp : Holds Γ hs pre)
    (hm : IsMsg Γ doc xs) (hq : ∀ x ∈ post, Rests x) (hsig : s.v.flags.signing = true) :
    s.hasPending = ({ s with v := { s.v with gop := { hasSei := true, afterNext := true } } }, false) := by
  unfold hasPending
  obtain ⟨c, e, hc, -⟩ := scan_holds (xs :: post) hp (c := {}) ⟨rfl, rfl, rfl, rfl, rfl⟩
  rw [hsig, hl, e]
  unfold scan
  rw [if_neg (by rw [hc.found]; decide), scanStep_msg hm hc]
  have := scan_rests [] hq (c := { c with hasSei := true, sei := true, last := some true }) hc.ends hc.after hc.found
  rw [List.append_nil] at this
  rw [this]
  simp only [scan, hc.found, hc.after]
  rfl

/-- The first NAL unit of the next GOP makes the GOP pending. -/
theorem hasPending_next {s : Legacy} {hs : List Bytes} {doc h own : Bytes} {pre post : LList} {xs xi : Nat × LItem} (hl : s.list = pre ++ xs :: (post ++ [xi])) (hp : Holds Γ hs pre)
    (hm : IsMsg Γ doc xs) (hq : ∀ x ∈ post, Rests x) (hi : IsNext Γ h own xi) (hsig : s.v.flags.signing = true) :
    s.hasPending = ({ s with v := { s.v with gop := { hasSei := true, noEnd := true } } }, true) := by
  unfold hasPending
  obtain ⟨c, e, hc, -⟩ := scan_holds (xs :: (post ++ [xi])) hp (c := {}) ⟨rfl, rfl, rfl, rfl, rfl⟩
  rw [hsig, hl, e]
  conv => lhs; unfold scan
  rw [if_neg (by rw [hc.found]; decide), scanStep_msg hm hc,
    scan_rests [xi] hq (c := { c with hasSei := true, sei := true, last := some true }) hc.ends hc.after hc.found]
  obtain ⟨n, hn, hv, hh, hs, -, hf, -⟩ := hi.nalu
  have h1 : ¬ (n.valid ≤ 0 ∨ n.isHashable = false) := by
    rintro (h | h)
    · omega
    · rw [hh] at h; cases h
  unfold scan
  rw [if_neg (by rw [hc.found]; decide)]
  unfold scanStep
  simp only [hn, if_neg h1, if_pos (show xi.2.status = Status.P ∧ n.isHashable = true from ⟨hi.status, hh⟩), hs, hf, hi.need, hc.ends, hc.after, hc.found]
  simp [scan]

/-- Items with nothing pending. -/
theorem scan_done {l : LList} (r : LList) (h : ∀ x ∈ l, x.2.status ≠ .P) {c : Validator.Scan} (hc : Calm c) : ∃ c', scan true (l ++ r) c = scan true r c' ∧ Calm c' := by
  induction l generalizing c with
  | nil => exact ⟨c, rfl, hc⟩
  | cons x l ih =>
    rw [List.cons_append]
    conv => enter [1, c', 1, 1]; unfold scan
    rw [if_neg (by rw [hc.found]; decide)]
    refine ih (fun y hy => h y (List.mem_cons_of_mem _ hy)) ?_
    have h2 : ∀ n : Nalu, ¬ (x.2.status = Status.P ∧ n.isHashable = true) := fun n hc => h x List.mem_cons_self hc.1
    unfold scanStep
    cases hn : x.2.nalu with
    | none => exact ⟨hc.ends, hc.sei, hc.after, hc.last, by simp [hc.ends, hc.after, hc.found]⟩
    | some n =>
      dsimp only
      rw [if_neg (h2 n)]
      split
      · exact ⟨hc.ends, hc.sei, hc.after, hc.last, by simp [hc.ends, hc.after, hc.found]⟩
      · exact ⟨hc.ends, hc.sei, hc.after, hc.last, by simp [hc.ends, hc.after, hc.found]⟩

/-- After the round nothing is pending. -/
theorem hasPending_done {s : Legacy} {l : LList} {x : Nat × LItem} {b : Bytes} (hl : s.list = l ++ [x]) (h : ∀ y ∈ l, y.2.status ≠ .P) (hx : Waits Γ b x)
    (hsig : s.v.flags.signing = true) : ∃ g : GopState, s.hasPending = ({ s with v := { s.v with gop := g } }, false) ∧ g.afterNext = false := by
  unfold hasPending
  obtain ⟨c, e, hc⟩ := scan_done [x] h (c := {}) ⟨rfl, rfl, rfl, rfl, rfl⟩
  rw [hsig, hl, e]
  unfold scan
  rw [if_neg (by rw [hc.found]; decide), scanStep_waits hx hc]
  refine ⟨{ hasSei := c.hasSei, afterNext := false, noEnd := c.after && decide (c.ends < 2) }, ?_, rfl⟩
  simp only [scan, hc.found]
  rw [← hl]
  rfl

/-! ### Decoding the SEI -/

theorem nextSei_msg {pre r : LList} {xs : Nat × LItem} (hp : ∀ x ∈ pre, (x.2.isSei && decide (x.2.status = .P)) = false) (hs : xs.2.isSei = true) (ht : xs.2.status = .P) :
    Legacy.nextSei (pre ++ xs :: r) = some xs := by
  unfold Legacy.nextSei
  rw [List.find?_append, List.find?_eq_none.2 (by intro x hx; rw [hp x hx]; decide), List.find?_cons_of_pos (by rw [hs, ht]; rfl)]
  rfl

theorem Holds.sei {hs : List Bytes} {l : LList} (h : Holds Γ hs l) : ∀ x ∈ l, (x.2.isSei && decide (x.2.status = .P)) = false := by
  intro x hx
  obtain ⟨n, hn, hg⟩ := h.nalu hx
  unfold LItem.isSei
  rw [hn]
  dsimp only
  rw [hg]; rfl

theorem IsMsg.isSei {doc : Bytes} {x : Nat × LItem} (h : IsMsg Γ doc x) : x.2.isSei = true := by
  obtain ⟨n, hn, -, -, hg, -⟩ := h.nalu
  unfold LItem.isSei
  rw [hn]; exact hg

/-- The state when the SEI has been decoded. -/
structure Fresh (Γ : Scene) (i : Info) (s t : Legacy) : Prop extends Kept s t where
  knows : Knows Γ t.v
  told : Told i t.v.d
  flags : t.v.flags = s.v.flags
  synced : t.v.synced = s.v.synced
  has : t.v.gop.hasSei = true
  lost : t.v.gop.lost = false
  hashes : 64 ≤ t.hashes.length

theorem decodeSei_ok {s : Legacy} {i : Info} {mem : Bytes} {size : Nat} (hk : Knows Γ s.v) (ht : Tells Γ i mem size) (h0 : size ≠ 0)
    (hc : s.v.synced = true → i.counter = s.v.d.gopCounter + 1) (hg : s.v.gop.hasSei = true) (hb : 64 ≤ s.hashes.length) :
    ∃ t, s.decodeSei Γ.env mem size = .ok t () ∧ Fresh Γ i s t ∧ t.list = s.list := by
  obtain ⟨v', e1, e2, e3⟩ := ht s.v hk
  have hd : Decoded s.v v' := (tlvDecode_decoded Γ.env s.v mem size).of_ok e1
  have hl : (decide ((if ((v'.d.gopCounter.toNat : Int) - ((s.v.d.gopCounter + 1).toNat : Int)) < 0 then ((v'.d.gopCounter.toNat : Int) - ((s.v.d.gopCounter + 1).toNat : Int)) + 9223372036854775807
      else ((v'.d.gopCounter.toNat : Int) - ((s.v.d.gopCounter + 1).toNat : Int))) > 0) && v'.synced) = false := by
    rw [hd.synced]
    cases hy : s.v.synced with
    | false => rw [Bool.and_false]
    | true =>
      rw [e3.counter, hc hy, Int.sub_self]
      rfl
  have e : s.decodeSei Γ.env mem size = .ok { s with v := { v' with gop := { v'.gop with lost := false, transLost := v'.gop.transLost || (v'.gop.noEnd && false) } } } () := by
    unfold Legacy.decodeSei
    rw [if_neg h0, e1]
    simp only [onV, Res.andThen_ok, hl]
  refine ⟨_, e, ⟨⟨hd.codec, hd.buddies, hd.hasRef, hd.acc, hd.thisVersion, Nat.le_refl _⟩, e2.same_of rfl rfl rfl e2.same, e3, hd.flags, hd.synced, ?_, rfl, hb⟩, rfl⟩
  show v'.gop.hasSei = true
  rw [hd.gop]; exact hg

theorem decodeNext_ok (hΓ : Γ.Ok) {s : Legacy} {i : Info} {doc : Bytes} {x : Nat × LItem} (hk : Knows Γ s.v) (hx : Msg Γ i doc x)
    (hc : s.v.synced = true → i.counter = s.v.d.gopCounter + 1) (hg : s.v.gop.hasSei = true) (hb : 64 ≤ s.hashes.length) :
    ∃ t, s.decodeNext Γ.env x = .ok t () ∧ Fresh Γ i s t ∧ t.list = s.list.set x.1 (fun i => { i with decoded := true }) ∧
      (i.typ = 1 → buf Γ.size t.v.sigHash = Γ.H doc) := by
  obtain ⟨n, hn, -⟩ := hx.nalu
  obtain ⟨h0, ht⟩ := hx.tells n hn
  obtain ⟨t, e, f, el⟩ := decodeSei_ok hk ht h0 hc hg hb
  unfold decodeNext
  rw [if_neg (by rw [hx.decoded]; decide)]
  simp only [hn, e, Res.andThen_ok, f.told.typ]
  by_cases h1 : i.typ = 1
  · rw [if_pos h1, if_neg (by rw [hk.size]; have := hΓ.le; omega), hk.size, hx.hash]
    refine ⟨_, rfl, ⟨⟨f.codec, f.buddies, f.hasRef, f.acc, f.thisVersion, f.brk⟩, f.knows.same_of rfl rfl rfl f.knows.same, f.told, f.flags, f.synced, f.has, f.lost, f.hashes⟩, by dsimp only; rw [el], fun _ => ?_⟩
    exact Validator.buf_ovl (hΓ.len _)
  · rw [if_neg h1]
    exact ⟨_, rfl, ⟨⟨f.codec, f.buddies, f.hasRef, f.acc, f.thisVersion, f.brk⟩, f.knows, f.told, f.flags, f.synced, f.has, f.lost, f.hashes⟩, by dsimp only; rw [el], fun h => absurd h h1⟩

/-- The list when the SEI has been decoded and, if needed, the hash of the GOP has been computed. -/
def readList (typ : UInt8) (pre : LList) (xs : Nat × LItem) (post : LList) (xi : Nat × LItem) : LList :=
  if typ = 1 then pre ++ (xs.1, { xs.2 with decoded := true }) :: (post ++ [xi])
  else useAll pre ++ (xs.1, { xs.2 with decoded := true, used := true }) :: (post ++ [(xi.1, { xi.2 with used := true })])

/-- All items of the GOP, its SEI and the first item of the next GOP. -/
structure Full (Γ : Scene) (hs : List Bytes) (h own doc : Bytes) (i : Info) (pre : LList) (xs : Nat × LItem) (post : LList) (xi : Nat × LItem) : Prop where
  rows : Holds Γ hs pre
  msg : Msg Γ i doc xs
  rest : ∀ x ∈ post, Rests x
  next : IsNext Γ h own xi
  addr : ((pre ++ xs :: (post ++ [xi])).map Prod.fst).Nodup
  sizes : ∀ b ∈ hs ++ [h], b.length = Γ.size

variable {b : Bool} {hs : List Bytes} {h own doc : Bytes} {i : Info} {pre post : LList} {xs xi : Nat × LItem}

theorem Full.addrs (f : Full Γ hs h own doc i pre xs post xi) : xs.1 ∉ pre.map Prod.fst ∧ xs.1 ∉ post.map Prod.fst ∧ xs.1 ≠ xi.1 := by
  have := f.addr
  simp only [List.map_append, List.map_cons, List.map_nil, List.nodup_append, List.nodup_cons, List.mem_append, List.mem_cons, List.not_mem_nil, or_false] at this
  obtain ⟨-, ⟨h1, -⟩, h2⟩ := this
  exact ⟨fun hc => h2 _ hc _ (.inl rfl) rfl, fun hc => h1 (.inl hc), fun hc => h1 (.inr hc)⟩

theorem Full.addrs2 (f : Full Γ hs h own doc i pre xs post xi) : xs.1 ∉ (post ++ [xi]).map Prod.fst := by
  obtain ⟨-, h2, h3⟩ := f.addrs
  rw [List.map_append, List.mem_append]
  rintro (hc | hc)
  · exact h2 hc
  · exact h3 (by simpa using hc)

theorem IsMsg.decode {x : Nat × LItem} (h : IsMsg Γ doc x) : IsMsg Γ doc (x.1, { x.2 with decoded := true }) :=
  ⟨h.status, h.nalu, h.hash, h.second, h.need, h.bad, h.used, h.dead⟩

theorem readNext_ok (hΓ : Γ.Ok) {s : Legacy} {v : Int} (hk : Knows Γ s.v) (f : Full Γ hs h own doc i pre xs post xi) (hsn : Checks Γ v hs h doc i) (hl : s.list = pre ++ xs :: (post ++ [xi]))
    (hc : s.v.synced = true → i.counter = s.v.d.gopCounter + 1) (hg : s.v.gop.hasSei = true) (hb : 64 ≤ s.hashes.length) :
    ∃ t, s.readNext Γ.env = .ok t () ∧ Fresh Γ i s t ∧ t.list = readList i.typ pre xs post xi ∧
      Γ.env.verify Γ.key i.signature (buf Γ.size t.v.sigHash) = v := by
  obtain ⟨a1, a2, a3⟩ := f.addrs
  obtain ⟨t, e1, e2, e3, e4⟩ := decodeNext_ok hΓ hk f.msg hc hg hb
  unfold readNext
  rw [show Legacy.nextSei s.list = some xs by rw [hl]; exact nextSei_msg f.rows.sei f.msg.isSei f.msg.status]
  simp only [e1, Res.andThen_ok]
  rw [hl, set_mid a1 f.addrs2] at e3
  unfold hashNext
  rw [f.msg.used, e2.told.typ]
  rcases hsn.verify with ⟨h1, h3⟩ | ⟨h1, h2, h3⟩
  · rw [if_neg (by rw [h1]; decide)]
    refine ⟨t, rfl, e2, by unfold readList; rw [if_pos h1]; exact e3, ?_⟩
    rw [e4 h1]; exact h3
  · rw [if_pos (by rw [h1]; decide)]
    obtain ⟨bf, g1, g2, g3⟩ := computeGop_all hΓ h2 e2.knows.alg (xs := (xs.1, { xs.2 with decoded := true })) (ys := xs) f.rows f.msg.toIsMsg.decode f.msg.toIsMsg rfl f.rest f.next a1 a2 a3 e3 e2.hashes
    rw [g1]
    simp only [Res.andThen_ok]
    rw [hk.size, if_neg (by have := hΓ.le; omega)]
    refine ⟨_, rfl, ⟨⟨e2.codec, e2.buddies, e2.hasRef, e2.acc, e2.thisVersion, e2.brk⟩, e2.knows.same_of rfl rfl rfl e2.knows.same, e2.told, e2.flags, e2.synced, e2.has, e2.lost, g2⟩, ?_, ?_⟩
    · unfold readList
      rw [if_neg (by rw [h1]; decide)]
    · have hbuf : buf Γ.size bf = chain Γ (Γ.H [1]) (hs ++ [h, Γ.H doc]) := by
        rw [← g3, h2]
        unfold buf
        rw [List.take_append_of_le_length (by omega)]
      have hlen : (buf Γ.size bf).length = Γ.size := by unfold buf; simp
      show Γ.env.verify Γ.key i.signature (buf Γ.size (ovl (buf Γ.size bf) t.v.sigHash)) = v
      rw [Validator.buf_ovl hlen, hbuf]
      exact h3

/-- Preparing the validation: the signature is verified. -/
theorem prepare_ok (hΓ : Γ.Ok) {s : Legacy} {v : Int} (hk : Knows Γ s.v) (f : Full Γ hs h own doc i pre xs post xi) (hsn : Checks Γ v hs h doc i) (hl : s.list = pre ++ xs :: (post ++ [xi]))
    (hc : s.v.synced = true → i.counter = s.v.d.gopCounter + 1) (hg : s.v.gop.hasSei = true) (hb : 64 ≤ s.hashes.length) :
    ∃ t, s.prepare Γ.env = .ok t () ∧ Fresh Γ i s t ∧ t.list = readList i.typ pre xs post xi ∧ t.v.verified = v := by
  obtain ⟨t, e1, e2, e3, e4⟩ := readNext_ok hΓ hk f hsn hl hc hg hb
  rw [prepare_eq, e1]
  simp only [Res.andThen_ok]
  unfold checkNext
  rw [if_neg (by rw [e2.knows.has]; simp), if_pos e2.has]
  unfold Legacy.verifyHash Validator.verifyHash
  rw [if_neg (fun hx => hx.elim e2.told.max fun hx => hsn.signature (e2.told.signature.symm.trans hx)), e2.knows.key]
  refine ⟨_, rfl, ⟨⟨e2.codec, e2.buddies, e2.hasRef, e2.acc, e2.thisVersion, e2.brk⟩, e2.knows.same_of rfl rfl e2.knows.key.symm e2.knows.same, e2.told, e2.flags, e2.synced, e2.has, e2.lost, e2.hashes⟩, e3, ?_⟩
  show Γ.env.verify Γ.key t.v.d.signature (buf t.v.d.hashSize t.v.sigHash) = v
  rw [e2.told.signature, e2.knows.size]
  exact e4

/-! ### Verification -/

/-- The number of items with this status. -/
def tally (st : Status) (l : LList) : Nat := l.countP fun x => decide (x.2.status = st)

theorem tally_append (st : Status) (l m : LList) : tally st (l ++ m) = tally st l + tally st m := List.countP_append

theorem tally_cons (st : Status) (x : Nat × LItem) (l : LList) : tally st (x :: l) = (if x.2.status = st then 1 else 0) + tally st l := by
  unfold tally
  rw [List.countP_cons, Nat.add_comm]
  simp

theorem tally_zero {st : Status} {l : LList} (h : ∀ x ∈ l, x.2.status ≠ st) : tally st l = 0 := by
  unfold tally
  rw [List.countP_eq_zero]
  intro x hx
  simp [h x hx]

/-- The items of the GOP after the round: `w` of `k` are wrong, and `m` are missing. -/
structure Ended (k w m : Nat) (l : LList) : Prop where
  mem : ∀ y ∈ l, (y.2.status = .ok ∨ y.2.status = .N ∨ y.2.status = .M ∨ y.2.status = .U ∨ y.2.status = .ignored) ∧ y.2.need = false ∧ y.2.dead = false
  good : tally .ok l = k - w
  wrong : tally .N l = w
  miss : tally .M l = m
  le : w ≤ k

/-- The items of the GOP, its SEI and those after it. -/
def endList (st : Status) (pre : LList) (xs : Nat × LItem) (post : LList) : LList := markAll st pre ++ (xs.1, { xs.2 with decoded := true, status := st }) :: post

/-- The item of the first NAL unit of the next GOP. -/
def lastItem (b : Bool) (xi : Nat × LItem) : Nat × LItem := (xi.1, { xi.2 with need := true, bad := !b })

theorem markAll_mem {st : Status} {l : LList} (h : Holds Γ hs l) : ∀ x ∈ markAll st l, (x.2.status = st ∨ x.2.status = .N ∨ x.2.status = .U ∨ x.2.status = .ignored) ∧ x.2.need = false ∧ x.2.dead = false := by
  intro x hx
  unfold markAll at hx
  obtain ⟨y, hy, rfl⟩ := List.mem_map.1 hx
  split
  · refine ⟨?_, rfl, (h.dead hy : y.2.dead = false)⟩
    show (if y.2.bad = true then Status.N else st) = _ ∨ (if y.2.bad = true then Status.N else st) = _ ∨ _
    split
    · exact .inr (.inl rfl)
    · exact .inl rfl
  · rename_i hn
    rcases h.mem hy with h1 | ⟨b, h1⟩
    · exact ⟨.inr (.inr h1.status), h1.need, h1.dead⟩
    · exact absurd h1.status hn

theorem markAll_cons (st : Status) (x : Nat × LItem) (l : LList) :
    markAll st (x :: l) = (if x.2.status = .P then (x.1, { x.2 with status := if x.2.bad then .N else st, need := false }) else x) :: markAll st l := rfl

theorem spoilt_cons (x : Nat × LItem) (l : LList) : spoilt (x :: l) = (if x.2.status = .P ∧ x.2.bad = true then 1 else 0) + spoilt l := by
  unfold spoilt
  rw [List.countP_cons, Nat.add_comm]
  simp

theorem tally_markAll {l : LList} (h : Holds Γ hs l) : tally .N (markAll .N l) = hs.length ∧ tally .N (markAll .ok l) = spoilt l ∧ tally .ok (markAll .ok l) + spoilt l = hs.length := by
  induction l generalizing hs with
  | nil => cases h; exact ⟨rfl, rfl, rfl⟩
  | cons x l ih =>
    rw [markAll_cons, markAll_cons, spoilt_cons, tally_cons, tally_cons, tally_cons]
    rcases h with ⟨h1, h2⟩ | ⟨b, t, rfl, h1, h2⟩
    · obtain ⟨a, b, c⟩ := ih h2
      rw [if_neg h1.not, if_neg h1.not, if_neg (show ¬ (x.2.status = .P ∧ x.2.bad = true) from fun hc => h1.not hc.1), a, b]
      rcases h1.status with e | e <;> rw [e] <;> simp [c]
    · obtain ⟨a, b, c⟩ := ih h2
      rw [if_pos h1.status, if_pos h1.status, a, b, List.length_cons]
      cases hb : x.2.bad with
      | true => simp [h1.status]; omega
      | false => simp; omega

theorem ended_good (f : Full Γ hs h own doc i pre xs post xi) : Ended (hs.length + 1) (spoilt pre) 0 (endList .ok pre xs post) := by
  obtain ⟨-, t2, t3⟩ := tally_markAll f.rows
  have hm : ∀ y ∈ endList .ok pre xs post, (y.2.status = .ok ∨ y.2.status = .N ∨ y.2.status = .U ∨ y.2.status = .ignored) ∧ y.2.need = false ∧ y.2.dead = false := by
    intro y hy
    unfold endList at hy
    rw [List.mem_append, List.mem_cons] at hy
    rcases hy with hy | rfl | hy
    · exact markAll_mem f.rows y hy
    · exact ⟨.inl rfl, f.msg.need, f.msg.dead⟩
    · exact ⟨.inr (.inr (f.rest y hy).status), (f.rest y hy).need, (f.rest y hy).dead⟩
  have hr : ∀ st, st ≠ .U → st ≠ .ignored → tally st post = 0 := fun st h1 h2 => tally_zero fun x hx => by
    rcases (f.rest x hx).status with e | e <;> rw [e]
    · exact h1.symm
    · exact h2.symm
  refine ⟨fun y hy => ?_, ?_, ?_, ?_, by omega⟩
  · obtain ⟨a, b⟩ := hm y hy
    refine ⟨?_, b⟩
    rcases a with a | a | a | a
    · exact .inl a
    · exact .inr (.inl a)
    · exact .inr (.inr (.inr (.inl a)))
    · exact .inr (.inr (.inr (.inr a)))
  · unfold endList
    rw [tally_append, tally_cons, hr _ (by decide) (by decide)]
    simp; omega
  · unfold endList
    rw [tally_append, tally_cons, hr _ (by decide) (by decide), t2]
    simp
  · refine tally_zero fun y hy => ?_
    rcases (hm y hy).1 with a | a | a | a <;> rw [a] <;> decide

theorem ended_bad (f : Full Γ hs h own doc i pre xs post xi) : Ended (hs.length + 1) (hs.length + 1) 0 (endList .N pre xs post) := by
  obtain ⟨t1, -, -⟩ := tally_markAll f.rows
  have hm : ∀ y ∈ endList .N pre xs post, (y.2.status = .N ∨ y.2.status = .U ∨ y.2.status = .ignored) ∧ y.2.need = false ∧ y.2.dead = false := by
    intro y hy
    unfold endList at hy
    rw [List.mem_append, List.mem_cons] at hy
    rcases hy with hy | rfl | hy
    · obtain ⟨a, b⟩ := markAll_mem (st := .N) f.rows y hy
      refine ⟨?_, b⟩
      rcases a with a | a
      · exact .inl a
      · exact a
    · exact ⟨.inl rfl, f.msg.need, f.msg.dead⟩
    · exact ⟨.inr (f.rest y hy).status, (f.rest y hy).need, (f.rest y hy).dead⟩
  refine ⟨fun y hy => ?_, ?_, ?_, ?_, Nat.le_refl _⟩
  · obtain ⟨a, b⟩ := hm y hy
    refine ⟨?_, b⟩
    rcases a with a | a | a
    · exact .inr (.inl a)
    · exact .inr (.inr (.inr (.inl a)))
    · exact .inr (.inr (.inr (.inr a)))
  · rw [Nat.sub_self]
    refine tally_zero fun y hy => ?_
    rcases (hm y hy).1 with a | a | a <;> rw [a] <;> decide
  · unfold endList
    rw [tally_append, tally_cons, tally_zero (l := post) fun x hx => by rcases (f.rest x hx).status with e | e <;> rw [e] <;> decide, t1]
    simp
  · refine tally_zero fun y hy => ?_
    rcases (hm y hy).1 with a | a | a <;> rw [a] <;> decide

theorem endList_addr {st : Status} : (endList st pre xs post).map Prod.fst = (pre ++ xs :: post).map Prod.fst := by
  unfold endList
  rw [List.map_append, List.map_append, List.map_cons, List.map_cons, markAll_addr]

/-- Missing items are put next to one of the items. -/
theorem insertMissing_at {l r : LList} {x : Nat × LItem} (h1 : x.1 ∉ l.map Prod.fst) (h2 : x.1 ∉ r.map Prod.fst) (v : LItem) (brk n : Nat) (app : Bool) :
    insertMissing (l ++ x :: r) v brk n app x.1 =
      l ++ ((if app then x :: ((List.range' brk n).map fun a => (a, v)).reverse else (List.range' brk n).map (fun a => (a, v)) ++ [x]) ++ r) := by
  have hid : ∀ m z : LList, x.1 ∉ m.map Prod.fst → m.flatMap (fun y => if y.1 = x.1 then (if app then y :: z.reverse else z ++ [y]) else [y]) = m := by
    intro m z
    induction m with
    | nil => intro _; rfl
    | cons y m ih =>
      intro hm
      rw [List.map_cons, List.mem_cons, not_or] at hm
      rw [List.flatMap_cons, if_neg (fun hc => hm.1 hc.symm), ih hm.2]
      rfl
  unfold insertMissing
  dsimp only
  rw [List.flatMap_append, List.flatMap_cons, if_pos rfl, hid l _ h1, hid r _ h2]

theorem insertMissing_last {l : LList} {y : Nat × LItem} {a k w : Nat} (brk n : Nat) (app : Bool) (hn : ((l ++ [y]).map Prod.fst).Nodup) (ha : a ∈ l.map Prod.fst) (hy : y.1 < brk) (he : Ended k w 0 l) :
    ∃ l', insertMissing (l ++ [y]) LItem.missing brk n app a = l' ++ [y] ∧ Ended k w n l' ∧ y.1 ∉ l'.map Prod.fst := by
  obtain ⟨x, hx, rfl⟩ := List.mem_map.1 ha
  obtain ⟨l1, l2, rfl⟩ := List.append_of_mem hx
  simp only [List.map_append, List.map_cons, List.map_nil, List.append_assoc, List.cons_append, List.nodup_append, List.nodup_cons, List.mem_append, List.mem_cons, List.not_mem_nil, or_false] at hn
  obtain ⟨-, ⟨h1, -, -, h2⟩, h3⟩ := hn
  obtain ⟨new, hnew⟩ : ∃ new : LList, new = if app then x :: ((List.range' brk n).map fun a => (a, LItem.missing)).reverse else (List.range' brk n).map (fun a => (a, LItem.missing)) ++ [x] := ⟨_, rfl⟩
  have hmem : ∀ z ∈ new, z = x ∨ (brk ≤ z.1 ∧ z.2 = LItem.missing) := by
    intro z hz
    rw [hnew] at hz
    have hq : ∀ z ∈ (List.range' brk n).map (fun a => (a, LItem.missing)), brk ≤ z.1 ∧ z.2 = LItem.missing := by
      intro z hz
      obtain ⟨a, ha, rfl⟩ := List.mem_map.1 hz
      exact ⟨(List.mem_range'_1.1 ha).1, rfl⟩
    split at hz
    · rcases List.mem_cons.1 hz with rfl | hz
      · exact .inl rfl
      · exact .inr (hq z (List.mem_reverse.1 hz))
    · rcases List.mem_append.1 hz with hz | hz
      · exact .inr (hq z hz)
      · exact .inl (List.mem_singleton.1 hz)
  have ht : ∀ st, tally st new = tally st [x] + if st = .M then n else 0 := by
    intro st
    have hq : tally st ((List.range' brk n).map fun a => (a, LItem.missing)) = if st = .M then n else 0 := by
      unfold tally
      rw [List.countP_map]
      by_cases hs : st = .M
      · rw [if_pos hs, List.countP_eq_length.2, List.length_range']
        intro a _
        simp [LItem.missing, hs]
      · rw [if_neg hs, List.countP_eq_zero]
        intro a _ hc
        simp [LItem.missing] at hc
        exact hs hc.symm
    have hrev : ∀ l : LList, tally st l.reverse = tally st l := fun l => List.countP_reverse
    rw [hnew]
    split
    · rw [tally_cons, hrev, hq, tally_cons]; simp [tally]
    · rw [tally_append, hq, Nat.add_comm]
  have hold : ∀ st, tally st (l1 ++ (new ++ l2)) = tally st (l1 ++ x :: l2) + if st = .M then n else 0 := by
    intro st
    rw [tally_append, tally_append, ht, tally_append, tally_cons, tally_cons]
    simp [tally]; omega
  refine ⟨l1 ++ (new ++ l2), ?_, ⟨?_, ?_, ?_, ?_, he.le⟩, ?_⟩
  · rw [List.append_assoc, List.cons_append, insertMissing_at, ← hnew]
    · simp
    · intro hc; exact h3 _ hc _ (.inl rfl) rfl
    · rw [List.map_append, List.mem_append]
      simpa using h1
  · intro z hz
    rw [List.mem_append, List.mem_append] at hz
    rcases hz with hz | hz | hz
    · exact he.mem z (by simp [hz])
    · rcases hmem z hz with rfl | ⟨-, e⟩
      · exact he.mem z (by simp)
      · rw [e]; exact ⟨.inr (.inr (.inl rfl)), rfl, rfl⟩
    · exact he.mem z (by simp [hz])
  · rw [hold, he.good]; simp
  · rw [hold, he.wrong]; simp
  · rw [hold, he.miss]; simp
  · intro hc
    rw [List.map_append, List.map_append, List.mem_append, List.mem_append] at hc
    rcases hc with hc | hc | hc
    · exact h3 _ hc _ (.inr (.inr rfl)) rfl
    · obtain ⟨z, hz, e⟩ := List.mem_map.1 hc
      rcases hmem z hz with rfl | ⟨e2, -⟩
      · exact h1 (.inr e)
      · omega
    · exact h2 _ hc _ rfl rfl

theorem addMissing_zero (s : Legacy) (app : Bool) (a : Nat) : s.addMissing 0 app a = s := by
  unfold Legacy.addMissing
  rw [if_neg (by decide)]
  have : insertMissing s.list LItem.missing s.brk (0 : Int).toNat app a = s.list := by
    unfold insertMissing
    simp only [Int.toNat_zero, List.range'_zero, List.map_nil, List.reverse_nil, List.nil_append, ite_self]
    exact List.flatMap_singleton' s.list
  rw [this]; rfl

theorem withHashList_ok (hΓ : Γ.Ok) {s : Legacy} (hk : Knows Γ s.v) (f : Full Γ hs h own doc i pre xs post xi) (hl : s.list = pre ++ (xs.1, { xs.2 with decoded := true }) :: (post ++ [xi]))
    (ht : s.v.d.hashList = (hs ++ [h]).flatten) (hv : s.v.verified = 1) :
    s.withHashList = .ok { s with list := endList .ok pre xs post ++ [lastItem true xi] } (true, hs.length + 1, hs.length + 1) := by
  obtain ⟨a1, a2, a3⟩ := f.addrs
  have hpos := hΓ.pos
  have hm : IsMsg Γ doc (xs.1, { xs.2 with decoded := true }) := f.msg.toIsMsg.decode
  obtain ⟨m, e, e1, e2, e3, e4, e5, e6⟩ := hashListLoop_all (brk := s.brk) f.rows hm f.rest f.next a1
  unfold Legacy.withHashList
  rw [if_neg (by rw [hk.size]; omega), show Legacy.nextSei s.list = some (xs.1, { xs.2 with decoded := true }) by rw [hl]; exact nextSei_msg f.rows.sei hm.isSei hm.status]
  dsimp only
  rw [if_neg (by rw [hv]; decide), if_neg (by rw [hv]; decide), ht, hk.size, chunk_flatten hpos f.sizes, hl, e]
  dsimp only
  unfold hashListEnd
  rw [if_neg (by rw [e1]; omega), e5]
  dsimp only
  rw [if_neg (by rw [e1, e2]; simp)]
  have hu : ((hs ++ [h]).length : Int) - 1 - m.latest - 1 = -1 := by rw [e1]; simp
  dsimp only
  rw [hu, e3]
  unfold Legacy.addMissing
  rw [if_pos (by decide), if_neg (by decide), e6]
  have h1 : xs.1 ∉ (markAll .ok pre).map Prod.fst := by rw [markAll_addr]; exact a1
  have h2 : xs.1 ∉ (post ++ [(xi.1, ({ xi.2 with need := true } : LItem))]).map Prod.fst := by
    have := f.addrs2
    simpa using this
  dsimp only
  have := set_mid (x := (xs.1, ({ xs.2 with decoded := true } : LItem))) h1 h2 (fun i => { i with status := .ok })
  dsimp only at this
  rw [this]
  have hb : lastItem true xi = (xi.1, { xi.2 with need := true }) := by
    unfold lastItem
    have := f.next.bad
    rw [show (!true) = xi.2.bad by rw [this]; rfl]
  rw [hb]
  simp [endList]

theorem useAll_addr (l : LList) : (useAll l).map Prod.fst = l.map Prod.fst := by
  unfold useAll
  rw [List.map_map]
  refine List.map_congr_left fun x _ => ?_
  show Prod.fst (if _ then _ else _) = _
  split <;> rfl

theorem withGopHash_any {s : Legacy} (f : Full Γ hs h own doc i pre xs post xi)
    (hl : s.list = useAll pre ++ (xs.1, { xs.2 with decoded := true, used := true }) :: (post ++ [(xi.1, { xi.2 with used := true })]))
    (ht : b = true → s.v.d.numSent.toNat = hs.length + 1) (hv : s.v.verified = right b) (hbrk : xi.1 < s.brk) :
    ∃ l brk, s.withGopHash = .ok { s with list := l ++ [lastItem b xi], brk := brk } (true, (s.v.d.numSent.toNat : Int), hs.length + 1) ∧
      Ended (hs.length + 1) (if b then spoilt pre else hs.length + 1) (if s.v.flags.first then 0 else s.v.d.numSent.toNat - (hs.length + 1)) l ∧ xi.1 ∉ l.map Prod.fst ∧ s.brk ≤ brk ∧
      (s.v.flags.first = true → l = endList (if b then .ok else .N) pre xs post) := by
  obtain ⟨c, hc, -⟩ := f.next.second
  have hcount : setStatusCount s.list = hs.length + 1 := by
    rw [hl, setStatusCount_append, setStatusCount_used f.rows]
    have : setStatusCount ((xs.1, ({ xs.2 with decoded := true, used := true } : LItem)) :: (post ++ [(xi.1, { xi.2 with used := true })])) = 1 := by
      unfold setStatusCount
      rw [List.filter_cons_of_pos (by simp [f.msg.second]), List.length_cons]
      have := setStatusCount_append post [(xi.1, { xi.2 with used := true })]
      unfold setStatusCount at this
      rw [this]
      have h0 := setStatusCount_rests f.rest
      unfold setStatusCount at h0
      rw [h0]
      simp [hc, f.next.need]
    omega
  obtain ⟨st, hst⟩ : ∃ st : Status, st = if b then .ok else .N := ⟨_, rfl⟩
  have hset : setStatus st s.list = endList st pre xs post ++ [lastItem b xi] := by
    have e1 : setStatus st s.list = setStatus st (useAll pre) ++ setStatus st ((xs.1, ({ xs.2 with decoded := true, used := true } : LItem)) :: (post ++ [(xi.1, { xi.2 with used := true })])) := by
      rw [hl]; unfold setStatus; rw [List.map_append]
    have e2 : setStatus st ((xs.1, ({ xs.2 with decoded := true, used := true } : LItem)) :: (post ++ [(xi.1, { xi.2 with used := true })])) =
        (xs.1, { xs.2 with decoded := true, status := st }) :: (setStatus st post ++ [lastItem b xi]) := by
      have q1 : settle st { xs.2 with decoded := true, used := true } = { xs.2 with decoded := true, used := true, status := st } := by
        unfold settle
        simp only [f.msg.second, f.msg.bad, f.msg.need]
        rfl
      have q2 : settle st { xi.2 with used := true } = { xi.2 with used := true, need := true, bad := !b } := by
        unfold settle
        simp only [hc, f.next.need]
        rw [hst]
        cases b <;> rfl
      unfold setStatus
      rw [List.map_cons, List.map_append, List.map_cons, List.map_nil]
      simp only [if_true, q1, q2]
      congr 1
      · have := f.msg.used
        rw [← this]
      · congr 2
        have := f.next.used
        unfold lastItem
        rw [← this]
    rw [e1, e2, setStatus_used f.rows, setStatus_rests f.rest]
    unfold endList
    simp
  have hu : ∃ y, s.list.find? (fun x => x.2.used) = some y ∧ (∃ n, y.2.nalu = some n) ∧ y.1 ∈ (pre ++ xs :: post).map Prod.fst := by
    have hl2 : s.list = (useAll pre ++ (xs.1, { xs.2 with decoded := true, used := true }) :: post) ++ [(xi.1, { xi.2 with used := true })] := by rw [hl]; simp
    rw [hl2, List.find?_append]
    cases hf : (useAll pre ++ (xs.1, ({ xs.2 with decoded := true, used := true } : LItem)) :: post).find? (fun x => x.2.used) with
    | none =>
      have := List.find?_eq_none.1 hf (xs.1, { xs.2 with decoded := true, used := true }) (by simp)
      simp at this
    | some y =>
      refine ⟨y, rfl, ?_⟩
      have hy := List.mem_of_find?_eq_some hf
      have hy2 := List.mem_map_of_mem (f := Prod.fst) hy
      rw [List.map_append, List.map_cons, useAll_addr] at hy2
      refine ⟨?_, by rw [List.map_append, List.map_cons]; exact hy2⟩
      rw [List.mem_append, List.mem_cons] at hy
      rcases hy with hy | rfl | hy
      · unfold useAll at hy
        obtain ⟨z, hz, rfl⟩ := List.mem_map.1 hy
        obtain ⟨n, hn, -⟩ := f.rows.nalu hz
        refine ⟨n, ?_⟩
        split <;> exact hn
      · obtain ⟨n, hn, -⟩ := f.msg.nalu; exact ⟨n, hn⟩
      · obtain ⟨n, hn, -⟩ := (f.rest y hy).nalu; exact ⟨n, hn⟩
  obtain ⟨y, y1, ⟨n, y2⟩, y3⟩ := hu
  have hend : Ended (hs.length + 1) (if b then spoilt pre else hs.length + 1) 0 (endList st pre xs post) := by
    rw [hst]
    cases b
    · exact ended_bad f
    · exact ended_good f
  have hnd : ((endList st pre xs post ++ [lastItem b xi]).map Prod.fst).Nodup := by
    have := f.addr
    rw [show pre ++ xs :: (post ++ [xi]) = (pre ++ xs :: post) ++ [xi] by simp, List.map_append] at this
    rw [List.map_append, endList_addr]
    exact this
  have hfr : xi.1 ∉ (endList st pre xs post).map Prod.fst := by
    rw [List.map_append, List.nodup_append] at hnd
    exact fun hx => hnd.2.2 _ hx _ (List.mem_singleton.2 rfl) rfl
  have hva : s.v.verified = 1 ∨ s.v.verified = 0 := by rw [hv]; cases b; exact .inr rfl; exact .inl rfl
  have hsv : (if s.v.verified = 1 then Status.ok else .N) = st := by rw [hv, hst]; cases b <;> rfl
  unfold Legacy.withGopHash
  rw [if_pos hva, hsv, hcount, hset, y1]
  dsimp only
  rw [y2]
  dsimp only
  have hcast : ((hs.length + 1 : Nat) : Int) = (hs.length : Int) + 1 := by omega
  by_cases hfirst : s.v.flags.first = true
  · rw [if_pos hfirst, hcast]
    refine ⟨_, s.brk, rfl, ?_, hfr, Nat.le_refl _, fun _ => by rw [hst]⟩
    rw [if_pos hfirst]
    exact hend
  · rw [if_neg hfirst, if_neg hfirst]
    by_cases hneg : ((s.v.d.numSent.toNat : Int) - ((hs.length + 1 : Nat) : Int)) < 0
    · unfold Legacy.addMissing
      rw [if_pos hneg, hcast]
      refine ⟨_, s.brk, rfl, ?_, hfr, Nat.le_refl _, fun hc => absurd hc hfirst⟩
      rw [show s.v.d.numSent.toNat - (hs.length + 1) = 0 by omega]
      exact hend
    · obtain ⟨l, g1, g2, g3⟩ := insertMissing_last (brk := s.brk) (n := s.v.d.numSent.toNat - (hs.length + 1)) (app := n.firstInGop) hnd (by rw [endList_addr]; exact y3) hbrk hend
      unfold Legacy.addMissing
      rw [if_neg hneg]
      dsimp only
      rw [show ((s.v.d.numSent.toNat : Int) - ((hs.length + 1 : Nat) : Int)).toNat = s.v.d.numSent.toNat - (hs.length + 1) by omega, g1, hcast]
      exact ⟨l, _, rfl, g2, g3, Nat.le_add_right _ _, fun hc => absurd hc hfirst⟩

/-- The number of wrong items. -/
def wrongs (b : Bool) (q k : Nat) : Nat := if b then q else k

theorem verifyGop_any (hΓ : Γ.Ok) {s t : Legacy} (f : Full Γ hs h own doc i pre xs post xi) (hsn : Signs Γ b hs h doc i) (ht : Fresh Γ i s t)
    (hl : t.list = readList i.typ pre xs post xi) (hv : t.v.verified = right b) (hf : b = false → t.v.flags.first = false) (hbrk : xi.1 < t.brk) :
    ∃ l brk, t.verifyGop = .ok { t with list := l ++ [lastItem b xi], brk := brk } (true, (i.num.toNat : Int), hs.length + 1) ∧
      Ended (hs.length + 1) (wrongs b (spoilt pre) (hs.length + 1)) (i.num.toNat - (hs.length + 1)) l ∧ xi.1 ∉ l.map Prod.fst ∧ t.brk ≤ brk := by
  unfold verifyGop
  rw [if_neg (by rw [ht.lost]; simp), ht.told.typ]
  unfold readList at hl
  rcases hsn.verify with ⟨h1, ⟨rfl, h2⟩, -⟩ | ⟨h1, h2, -⟩
  · rw [if_pos h1] at hl ⊢
    rw [withHashList_ok hΓ ht.knows f hl ((ht.told.list h1).trans h2) hv, hsn.num rfl, Nat.sub_self]
    refine ⟨_, t.brk, rfl, ended_good f, ?_, Nat.le_refl _⟩
    rw [endList_addr]
    have := f.addr
    rw [show pre ++ xs :: (post ++ [xi]) = (pre ++ xs :: post) ++ [xi] by simp, List.map_append, List.nodup_append] at this
    exact fun hx => this.2.2 _ hx _ (List.mem_singleton.2 rfl) rfl
  · rw [if_neg (by rw [h1]; decide)] at hl ⊢
    obtain ⟨l, brk, g1, g2, g3, g4, -⟩ := withGopHash_any f hl (fun hb => by rw [ht.told.num]; exact hsn.num hb) hv hbrk
    rw [ht.told.num] at g1 g2
    refine ⟨l, brk, g1, ?_, g3, g4⟩
    cases b with
    | false => rw [hf rfl] at g2; exact g2
    | true => rw [hsn.num rfl, Nat.sub_self, ite_self] at g2; rw [hsn.num rfl, Nat.sub_self]; exact g2

/-! ### The verdict -/

theorem getStats_any {l : LList} {k w m : Nat} (he : Ended k w m l) (hx : IsNext Γ h own xi) :
    ∃ v, Legacy.getStats (l ++ [lastItem b xi]) = { invalid := w, missing := m, hasValid := v } ∧ (b = true → v = true) := by
  have hst : (lastItem b xi).2.status = .P := hx.status
  have h1 : ((l ++ [lastItem b xi]).filter fun x => x.2.status = .N || x.2.status = .E).length = w := by
    rw [← List.countP_eq_length_filter, List.countP_append, List.countP_cons, List.countP_nil]
    have : l.countP (fun x => decide (x.2.status = .N) || decide (x.2.status = .E)) = tally .N l := by
      unfold tally
      refine List.countP_congr fun x hx => ?_
      rcases (he.mem x hx).1 with e | e | e | e | e <;> rw [e] <;> decide
    rw [this, he.wrong, hst]
    rfl
  have h2 : ((l ++ [lastItem b xi]).filter fun x => x.2.status = .M).length = m := by
    rw [← List.countP_eq_length_filter, List.countP_append, List.countP_cons, List.countP_nil]
    have := he.miss
    unfold tally at this
    rw [this, hst]
    rfl
  unfold Legacy.getStats
  rw [h1, h2]
  refine ⟨_, rfl, fun hb => ?_⟩
  rw [List.any_eq_true]
  refine ⟨lastItem b xi, by simp, ?_⟩
  rw [hst, hb]
  rfl

theorem numPending_any {l : LList} {k w m : Nat} (he : Ended k w m l) (hx : IsNext Γ h own xi) : Legacy.numPending (l ++ [lastItem b xi]) = 1 := by
  unfold Legacy.numPending
  rw [List.filter_append, List.filter_eq_nil_iff.2 (fun x hx => by rcases (he.mem x hx).1 with e | e | e | e | e <;> rw [e] <;> decide), List.nil_append,
    List.filter_cons_of_pos (by rw [show (lastItem b xi).2.status = .P from hx.status]; rfl)]
  rfl

/-- The verdict when `w` items are wrong. -/
def grade (w : Nat) : Auth := if w = 0 then .ok else .notOk

theorem verdict_any {w m k : Nat} {n : Int} {v first : Bool} (h0 : w = 0 → v = true ∧ m = 0 ∧ n = (k : Int) + 1) : verdict { invalid := w, missing := m, hasValid := v } first (true, n, (k : Int) + 1) = grade w := by
  unfold verdict judge grade
  by_cases hw : w = 0
  · obtain ⟨rfl, rfl, rfl⟩ := h0 hw
    subst hw
    simp only [Nat.lt_irrefl, gt_iff_lt, if_false, decide_true]
    have h2 : (decide (1 < (k : Int) + 1) && decide (((0 : Nat) : Int) ≥ (k : Int) + 1 - 1)) = false := by
      cases h : (decide (1 < (k : Int) + 1) && decide (((0 : Nat) : Int) ≥ (k : Int) + 1 - 1)) with
      | false => rfl
      | true => simp at h; omega
    rw [Bool.and_assoc, h2]
    simp
  · have : w > 0 := by omega
    simp [this, hw]

/-- The state after the round. -/
structure Good (Γ : Scene) (i : Info) (k w : Nat) (s t : Legacy) : Prop extends Kept s t where
  knows : Knows Γ t.v
  counter : t.v.d.gopCounter = i.counter
  flags : t.v.flags = { s.v.flags with first := false, hasAuth := true }
  synced : t.v.synced = true
  hashes : 64 ≤ t.hashes.length
  auth : t.v.rep.latest.auth = grade w
  expected : t.v.rep.latest.expected = i.num.toNat
  received : t.v.rep.latest.received = k
  pending : t.v.rep.latest.pending = 1

theorem conclude_any {s t : Legacy} {l : LList} {w m : Nat} (he : Ended (hs.length + 1) w m l) (hx : IsNext Γ h own xi) (ht : Fresh Γ i s t) (hl : t.list = l ++ [lastItem b xi])
    (hr : s.v.flags.resetFirst = false) (hsig : s.v.flags.signing = true) (h0 : w = 0 → b = true ∧ m = 0 ∧ (i.num.toNat : Int) = (hs.length : Int) + 1) (hf : w ≠ 0 → s.v.flags.first = false) :
    Good Γ i (hs.length + 1) w s (t.conclude (true, (i.num.toNat : Int), hs.length + 1)).finish ∧ (t.conclude (true, (i.num.toNat : Int), hs.length + 1)).finish.list = l ++ [lastItem b xi] := by
  have e : t.conclude (true, (i.num.toNat : Int), hs.length + 1) = { t with v := { t.v with
      synced := true
      rep := { t.v.rep with latest := { t.v.rep.latest with auth := grade w, expected := i.num.toNat, received := hs.length + 1 } } } } := by
    obtain ⟨v, g1, g2⟩ := getStats_any (b := b) he hx
    unfold conclude
    dsimp only
    rw [hl, g1, verdict_any (fun hw => by obtain ⟨a, c, d⟩ := h0 hw; exact ⟨g2 a, c, d⟩)]
    have hretry : (t.v.flags.first && decide (grade w ≠ Auth.ok)) = false := by
      by_cases hw : w = 0
      · rw [hw]; simp [grade]
      · rw [ht.flags, hf hw]; rfl
    have hsync : (if t.v.flags.first = true then decide (grade w = Auth.ok) else true) = true := by
      by_cases hw : w = 0
      · rw [hw]; simp [grade]
      · rw [ht.flags, hf hw]; rfl
    rw [hretry, hsync, ht.knows.same]
    simp [hl]
  rw [e]
  have hr' : t.v.flags.resetFirst = false := by rw [ht.flags]; exact hr
  have hs' : t.v.flags.signing = true := by rw [ht.flags]; exact hsig
  unfold finish
  dsimp only
  rw [if_neg (by rw [hr']; decide), hl, numPending_any he hx]
  refine ⟨⟨⟨ht.codec, ht.buddies, ht.hasRef, ht.acc, ht.thisVersion, ht.brk⟩, ht.knows.same_of rfl rfl rfl ht.knows.same, ht.told.counter, ?_, rfl, ht.hashes, rfl, rfl, ?_, rfl⟩, rfl⟩
  · show ({ t.v.flags with first := t.v.flags.resetFirst || !t.v.flags.signing, hasAuth := true } : VFlags) = _
    rw [hr', hs', ht.flags]
    rfl
  · simp

theorem round_any (hΓ : Γ.Ok) {s : Legacy} (hk : Knows Γ s.v) (f : Full Γ hs h own doc i pre xs post xi) (hsn : Signs Γ b hs h doc i) (hl : s.list = pre ++ xs :: (post ++ [xi]))
    (hc : s.v.synced = true → i.counter = s.v.d.gopCounter + 1) (hg : s.v.gop.hasSei = true) (hb : 64 ≤ s.hashes.length) (hr : s.v.flags.resetFirst = false) (hsig : s.v.flags.signing = true)
    (hf : wrongs b (spoilt pre) (hs.length + 1) ≠ 0 → s.v.flags.first = false) (hbrk : xi.1 < s.brk) :
    ∃ t l, s.round Γ.env = .ok t () ∧ Good Γ i (hs.length + 1) (wrongs b (spoilt pre) (hs.length + 1)) s t ∧ t.list = l ++ [lastItem b xi] ∧
      Ended (hs.length + 1) (wrongs b (spoilt pre) (hs.length + 1)) (i.num.toNat - (hs.length + 1)) l ∧ xi.1 ∉ l.map Prod.fst := by
  obtain ⟨t, e1, e2, e3, e4⟩ := prepare_ok (s := s.begin) hΓ (hk.same_of rfl rfl rfl rfl) f hsn.checks hl hc hg hb
  have hfb : b = false → t.v.flags.first = false := fun hb => by
    rw [e2.flags]
    refine hf ?_
    rw [hb]
    exact Nat.succ_ne_zero _
  obtain ⟨l, brk, e5, e6, e7, e8⟩ := verifyGop_any hΓ f hsn e2 e3 e4 hfb (Nat.lt_of_lt_of_le hbrk e2.brk)
  have g2 : Fresh Γ i s.begin { t with list := l ++ [lastItem b xi], brk := brk } :=
    ⟨⟨e2.codec, e2.buddies, e2.hasRef, e2.acc, e2.thisVersion, Nat.le_trans e2.brk e8⟩, e2.knows, e2.told, e2.flags, e2.synced, e2.has, e2.lost, e2.hashes⟩
  obtain ⟨c1, c2⟩ := conclude_any (b := b) e6 f.next g2 rfl hr hsig (fun hw => by
    cases b with
    | false => cases hw
    | true => have := hsn.num rfl; exact ⟨rfl, by omega, by omega⟩) hf
  refine ⟨_, l, ?_, ⟨⟨c1.codec, c1.buddies, c1.hasRef, c1.acc, c1.thisVersion, c1.brk⟩, c1.knows, c1.counter, c1.flags, c1.synced, c1.hashes, c1.auth, c1.expected, c1.received, c1.pending⟩, c2, e6, e7⟩
  unfold Legacy.round
  rw [e1]
  simp only [Res.andThen_ok]
  unfold conduct
  rw [if_pos (by rw [e2.flags]; exact hsig)]
  unfold validate
  rw [e5]
  rfl

/-- The loop. -/
theorem rounds_any (hΓ : Γ.Ok) {s : Legacy} {k : Nat} (hk : Knows Γ s.v) (f : Full Γ hs h own doc i pre xs post xi) (hsn : Signs Γ b hs h doc i) (hl : s.list = pre ++ xs :: (post ++ [xi]))
    (hc : s.v.synced = true → i.counter = s.v.d.gopCounter + 1) (hb : 64 ≤ s.hashes.length) (hr : s.v.flags.resetFirst = false) (hsig : s.v.flags.signing = true)
    (hf : wrongs b (spoilt pre) (hs.length + 1) ≠ 0 → s.v.flags.first = false) (hbrk : xi.1 < s.brk) (h2 : 2 ≤ k) :
    ∃ t l, s.rounds Γ.env k = .ok t () ∧ Good Γ i (hs.length + 1) (wrongs b (spoilt pre) (hs.length + 1)) s t ∧ t.list = l ++ [lastItem b xi] ∧
      Ended (hs.length + 1) (wrongs b (spoilt pre) (hs.length + 1)) (i.num.toNat - (hs.length + 1)) l ∧ xi.1 ∉ l.map Prod.fst ∧ t.v.gop.afterNext = false := by
  obtain ⟨k, rfl⟩ : ∃ j, k = j + 2 := ⟨k - 2, by omega⟩
  have hp := hasPending_next hl f.rows f.msg.toIsMsg f.rest f.next hsig
  obtain ⟨t, l, e1, e2, e3, e4, e5⟩ := round_any (s := { s with v := { s.v with gop := { hasSei := true, noEnd := true } } }) hΓ (hk.same_of rfl rfl rfl hk.same) f hsn hl hc rfl hb hr hsig hf hbrk
  obtain ⟨n, n1, n2, n3, n4, n5, n6, n7⟩ := f.next.nalu
  obtain ⟨c, b1, b2⟩ := f.next.second
  have hw : Waits Γ own (lastItem b xi) :=
    ⟨f.next.status, ⟨n, n1, n2, n3, n4, fun _ => rfl⟩, .inl ⟨rfl, c, b1, b2⟩, f.next.used, f.next.dead⟩
  have hsig' : t.v.flags.signing = true := by rw [e2.flags]; exact hsig
  obtain ⟨g, g1, g2⟩ := hasPending_done (s := t) (l := l) e3 (fun y hy => by rcases (e4.mem y hy).1 with e | e | e | e | e <;> rw [e] <;> decide) hw hsig'
  refine ⟨{ t with v := { t.v with gop := g } }, l, ?_, ⟨⟨e2.codec, e2.buddies, e2.hasRef, e2.acc, e2.thisVersion, e2.brk⟩, e2.knows.same_of rfl rfl rfl e2.knows.same, e2.counter, e2.flags, e2.synced, e2.hashes, e2.auth, e2.expected, e2.received, e2.pending⟩, e3, e4, e5, g2⟩
  unfold Legacy.rounds
  rw [hp]
  simp only [if_true, e1, Res.andThen_ok, hsig']
  unfold Legacy.rounds
  rw [g1]
  rfl

end Old
end SV
