import Verif.Proofs.FlowSync
/-! Validation of an undisturbed stream: the call with a SEI. -/
namespace SV
open Spec
namespace Validator

/-- A parsed SEI with the contents `i`; `m` is the same with the bytes to hash. -/
structure IsSei (Γ : Scene) (i : SeiInfo) (n m : Nalu) : Prop where
  sei : n.gopSei = true
  hashable : n.isHashable = true
  valid : n.valid > 0
  golden : n.golden = false
  first : n.firstInGop = false
  tlv : n.tlvSize ≠ 0
  tlvLe : n.tlvSize ≤ n.tlvMem.length
  tlvSmall : n.tlvSize < 2 ^ 63
  tells : Tells Γ i n.tlvMem n.tlvSize
  update : updateHashable n = .ok m
  same : m = { n with hashable := i.doc }
  doc : i.doc ≠ []
  signature : i.signature ≠ []
  verify : Γ.env.verify Γ.key i.signature (Γ.H i.doc) = 1

/-- What the report on a GOP says. -/
structure GoodReport (b : Bool) (i : SeiInfo) (gop rest : Nat) (r : Report) : Prop where
  auth : r.latest.auth = .ok
  acc : b = true → r.acc.auth = .ok
  key : r.latest.keyChanged = false
  expected : r.latest.expected = i.num.toNat
  received : r.latest.received = gop
  pending : r.latest.pending = rest
  marks : ∃ str, r.latest.validationStr = some str ∧ (∀ c ∈ str, c ≠ 'N' ∧ c ≠ 'M' ∧ c ≠ 'E') ∧
    (str.filter (· = 'P')).length = rest ∧ gop + 1 ≤ (str.filter (· = '.')).length

/-- A SEI has been hashed; it belongs to the oldest pending GOP `p :: ps`. -/
structure Met0 (Γ : Scene) (b : Bool) (i : SeiInfo) (p : Piece) (ps rest : List Piece) (lnk : Bytes) (l : NList) (z : Nat × Item)
    (m : Nalu) (u : Validator) : Prop where
  codec : u.codec = Γ.codec
  legacy : u.legacy = false
  signing : u.flags.signing = true
  hasAuth : u.flags.hasAuth = false
  knows : Knows Γ u
  wf : WF u.list u.brk
  list : u.list = l ++ [z]
  rows : ∃ r, Rows Γ r (p :: ps ++ rest) (pending l) ∧ refAfter Γ.H r (p :: ps ++ rest) = u.buddies.take Γ.size
  unused : ∀ x ∈ u.list, x.2.used = false
  good : ∀ x ∈ u.list, x.2.status ≠ .N ∧ x.2.status ≠ .M ∧ x.2.status ≠ .E
  budLen : 2 * Γ.size ≤ u.buddies.length
  linkLen : u.linked.length = 128
  link : (u.linked.drop Γ.size).take Γ.size = lnk
  primary : u.primary = none ∨ u.primary = some Γ.oid
  version : u.rep.thisVersion = []
  acc : b = true → u.rep.acc.auth = .notSigned ∨ u.rep.acc.auth = .ok
  first : p.first = true
  others : ∀ q ∈ ps, q.first = false
  next : ∀ q t, rest = q :: t → q.first = true
  status : z.2.status = .P
  decoded : z.2.decoded = false
  nalu : z.2.nalu = some m
  hash : buf Γ.size z.2.hash = Γ.H i.doc
  counter : InTurn Γ.env.ov i.counter u
  seen : ∀ x ∈ l, Passed x

/-- The GOP is the one that was signed. -/
structure Met (Γ : Scene) (b : Bool) (i : SeiInfo) (p : Piece) (ps rest : List Piece) (lnk : Bytes) (l : NList) (z : Nat × Item)
    (m : Nalu) (u : Validator) : Prop extends Met0 Γ b i p ps rest lnk l z m u where
  linked : i.linked = lnk ∨ lnk = List.replicate Γ.size 0
  gopHash : ∃ r0, i.gopHash = Γ.H (pieceHashes Γ.H r0 (p :: ps)).flatten
  num : i.num.toNat ≤ ps.length + 1

variable {Γ : Scene} {b : Bool} {i : SeiInfo} {p : Piece} {ps rest : List Piece} {cnt : UInt32} {link : Bytes} {l : NList} {z : Nat × Item}
  {n m : Nalu} {u : Validator}

theorem pieceHashes_start (H : Bytes → Bytes) (r r' : Bytes) {p : Piece} (hp : p.first = true) (ps : List Piece) :
    pieceHashes H r (p :: ps) = pieceHashes H r' (p :: ps) := by
  unfold pieceHashes
  simp only [hp, if_true]

theorem refAfter_start (H : Bytes → Bytes) (r r' : Bytes) {p : Piece} (hp : p.first = true) (ps : List Piece) :
    refAfter H r (p :: ps) = refAfter H r' (p :: ps) := by
  show refAfter H (if p.first then H p.bytes else r) ps = refAfter H (if p.first then H p.bytes else r') ps
  rw [if_pos hp, if_pos hp]

theorem refAfter_append (H : Bytes → Bytes) (r : Bytes) (ps qs : List Piece) : refAfter H r (ps ++ qs) = refAfter H (refAfter H r ps) qs := by
  induction ps generalizing r with
  | nil => rfl
  | cons p ps ih => exact ih _

theorem Rows.firsts {r : Bytes} {ps : List Piece} {xs : NList} (h : Rows Γ r ps xs) (hp : ∀ q ∈ ps, q.first = false) :
    ∀ y ∈ xs, y.2.isFirst = false := by
  intro y hy
  obtain ⟨q, hq, b, hb⟩ := h.mem hy
  rw [hb.isFirst, hp q hq]

theorem Rows.starts {r : Bytes} {ps : List Piece} {xs : NList} (h : Rows Γ r ps xs) (hp : ∀ q t, ps = q :: t → q.first = true) :
    ∀ y t, xs = y :: t → y.2.isFirst = true := by
  intro y t e
  subst e
  cases ps with
  | nil => exact h.elim
  | cons q t' => rw [h.1.isFirst, hp q t' rfl]

/-- The list after the round: the items before the SEI. -/
def after (A : List Nat) (b a : Nat) (x : Nat × Item) : Nat × Item :=
  ((settled A b a x).1, { (settled A b a x).2 with used := false })

theorem after_status (A : List Nat) (b a : Nat) (x : Nat × Item) : (after A b a x).2.status = x.2.status ∨ (after A b a x).2.status = .ok := by
  unfold after settled
  split
  · exact .inr rfl
  · split
    · exact .inr rfl
    · exact .inl rfl

theorem after_addr (A : List Nat) (b a : Nat) (x : Nat × Item) : (after A b a x).1 = x.1 := by
  unfold after settled
  split
  · rfl
  · split <;> rfl

theorem after_other {A : List Nat} {b a : Nat} {x : Nat × Item} (h1 : x.1 ∉ A) (h2 : x.1 ≠ a) (hu : x.2.used = false) : after A b a x = x := by
  unfold after settled
  rw [if_neg h1, if_neg h2]
  rw [← hu]

theorem after_passed {A : List Nat} {b a : Nat} {x : Nat × Item} (h : Passed x) (ha : x.1 ≠ a) (hA : x.1 ∈ A → x.1 ≠ b → x.2.isFirst = false) : Passed (after A b a x) := by
  obtain ⟨n, hn, hl⟩ := h
  unfold after settled
  by_cases h1 : x.1 ∈ A
  · rw [if_pos h1]
    refine ⟨n, hn, fun _ hf => ?_⟩
    dsimp only
    by_cases h2 : x.1 = b
    · rw [if_pos h2]
    · have := hA h1 h2
      unfold Item.isFirst at this
      rw [hn] at this
      dsimp only at this
      rw [hf] at this; cases this
  · rw [if_neg h1, if_neg ha]
    exact ⟨n, hn, hl⟩

theorem after_pending {A : List Nat} {b a : Nat} {l xs ys : NList} (h : pending l = xs ++ ys) (hx : ∀ x ∈ xs, x.1 ∈ A)
    (hy : ∀ y ∈ ys, y.1 ∉ A ∧ y.1 ≠ a ∧ y.2.used = false) : pending (l.map (after A b a)) = ys := by
  have hst : ∀ x ∈ l, x.2.status ≠ .P → (after A b a x).2.status ≠ .P := by
    intro x _ hc
    rcases after_status A b a x with e | e
    · rw [e]; exact hc
    · rw [e]; decide
  rw [pending_map hst, h, List.map_append, pending_append]
  have e1 : pending (xs.map (after A b a)) = [] := by
    unfold pending
    rw [List.filter_eq_nil_iff]
    intro y hy
    obtain ⟨x, hxx, rfl⟩ := List.mem_map.1 hy
    have : (after A b a x).2.status = .ok := by
      unfold after settled
      rw [if_pos (hx x hxx)]
    rw [this]; decide
  have e2 : ys.map (after A b a) = ys := by
    conv => rhs; rw [← List.map_id ys]
    exact List.map_congr_left fun y hyy => after_other (hy y hyy).1 (hy y hyy).2.1 (hy y hyy).2.2
  rw [e1, e2, List.nil_append]
  unfold pending
  rw [List.filter_eq_self]
  intro y hyy
  have : y ∈ pending l := by rw [h]; exact List.mem_append_right _ hyy
  simpa using (mem_pending.1 this).2

theorem updateReport_ok {r : Report} (l : NList) (h1 : r.thisVersion = []) : ∃ r', updateReport r l = .ok (r', cleanUp l) ∧
      (r.latest.auth = .ok → (r.acc.auth = .notSigned ∨ r.acc.auth = .ok) → r'.acc.auth = .ok) ∧
      r'.thisVersion = [] ∧ r'.latest = { r.latest with naluStr := some (naluStr l), validationStr := some (validationStr l) } := by
  have hcv : compareVersions (some r.thisVersion) (some r.versionOnSigningSide) = .ok (-1) := by
    rw [h1]; rfl
  have hacc : ∀ x : Latest, x.auth = .ok → (r.acc.auth = .notSigned ∨ r.acc.auth = .ok) → (updateAccumulated x r.acc).auth = .ok := by
    intro x hx h3
    rcases h3 with h3 | h3 <;>
    by_cases a : r.acc.keyVal = .notOk <;> cases b : x.hasTs <;> cases c : r.acc.hasTs <;>
      simp [updateAccumulated, h3, a, b, c, hx, Auth.val]
  unfold updateReport
  dsimp only
  rw [hcv, Out.bind_ok]
  have h0 : ¬ ((-1 : Int) = 2) := by decide
  simp only [h0, if_false]
  have := hacc { r.latest with naluStr := some (naluStr l), validationStr := some (validationStr l) }
  split
  · exact ⟨_, rfl, this, h1, rfl⟩
  · exact ⟨_, rfl, this, h1, rfl⟩

theorem copyNalu_sei (hn : IsSei Γ i n m) : ∃ c, copyNalu true m = .ok (some c) := by
  have h1 := hn.tlvSmall
  have h2 := hn.tlvLe
  rw [hn.same]
  unfold copyNalu
  dsimp only
  rw [if_neg (by omega), if_neg (by omega), if_neg (by simp)]
  exact ⟨_, rfl⟩

theorem copyNalu_first {k : Bool} {m c : Nalu} (h : copyNalu k m = .ok (some c)) : c.firstInGop = m.firstInGop := by
  unfold copyNalu at h
  split at h
  · cases h
  split at h
  · cases h
  split at h
  · cases h
  · cases h; rfl

theorem validationStr_count (s : Status) (f : Char) (h : s.char = f) (h' : ∀ t : Status, t.char = f → t = s) (l : NList) :
    ((validationStr l).filter (· = f)).length = (l.filter fun x => x.2.status = s).length := by
  unfold validationStr
  rw [List.filter_map, List.length_map]
  congr 1
  refine List.filter_congr fun x _ => ?_
  show decide (x.2.status.char = f) = decide (x.2.status = s)
  by_cases e : x.2.status = s
  · rw [e, h]; simp
  · rw [decide_eq_false e, decide_eq_false fun hc => e (h' _ hc)]

theorem Met0.unsei (h : Met0 Γ b i p ps rest link l z m u) (hn : IsSei Γ i n m) :
    m.gopSei = true ∧ m.isHashable = true ∧ m.valid > 0 ∧ m.golden = false ∧ m.firstInGop = false ∧ m.tlvSize ≠ 0 ∧ Tells Γ i m.tlvMem m.tlvSize := by
  rw [hn.same]; exact ⟨hn.sei, hn.hashable, hn.valid, hn.golden, hn.first, hn.tlv, hn.tells⟩

/-- A GOP can be validated. -/
theorem met_due (hn : IsSei Γ i n m) (h : Met0 Γ b i p ps rest link l z m u) :
    ∃ r x xs ys g, Rows Γ r (p :: ps) (x :: xs) ∧ Rows Γ (refAfter Γ.H r (p :: ps)) rest ys ∧ refAfter Γ.H r (p :: ps ++ rest) = u.buddies.take Γ.size ∧
      pending l = x :: xs ++ ys ∧ u.hasPending.2 = true ∧ u.hasPending.1 = { u with gop := g } ∧ Due0 Γ i { u with gop := g } x xs ys z ∧
      ∀ r0, (x :: xs).flatMap (hashOf Γ.size) = (pieceHashes Γ.H r0 (p :: ps)).flatten := by
  obtain ⟨r, hr, href⟩ := h.rows
  obtain ⟨seg, ys, e1, h1, h2⟩ := hr.split
  cases seg with
  | nil => exact h1.elim
  | cons x xs =>
  have mz := h.unsei hn
  have hpend : pending u.list = x :: xs ++ (ys ++ [z]) := by
    rw [h.list, pending_append, e1, pending_cons, if_pos h.status, List.append_assoc]; rfl
  have hplain : ∀ y ∈ x :: xs ++ ys, y.2.isSei = false ∧ ∃ n, y.2.nalu = some n ∧ n.isHashable = true ∧ n.valid > 0 ∧ (n.firstInGop = true → y.2.second.isSome = true) := by
    intro y hy
    exact Rows.plain hr (by rw [e1]; exact hy)
  have hlp : ∀ x ∈ l, x.2.status = .P → x.2.isSei = false := by
    intro y hy hyp
    exact (hplain y (by rw [← e1]; exact mem_pending.2 ⟨hy, hyp⟩)).1
  have hxf : x.2.isFirst = true := by rw [h1.1.isFirst, h.first]
  obtain ⟨nx, hnx, hnxh, -, -⟩ := (hplain x (by simp)).2
  have hnxf : nx.firstInGop = true := by unfold Item.isFirst at hxf; rw [hnx] at hxf; exact hxf
  have hxl : x ∈ l ∧ x.2.status = .P := mem_pending.1 (by rw [e1]; simp)
  obtain ⟨hp1, g, hp2, hg⟩ := hasPending_due h.signing h.list hlp hxl.1 hnx hxl.2 hnxh hnxf h.nalu h.status mz.2.1 mz.2.2.1 mz.1
  refine ⟨r, x, xs, ys, g, h1, h2, href, e1, hp1, hp2, ?_, ?_⟩
  · refine ⟨⟨h.knows.same_of rfl rfl rfl h.knows.same, h.wf, hpend, hxf, Rows.firsts h1.2 h.others, Rows.starts h2 h.next, ?_, h1.1.linked,
      ⟨⟨m, h.nalu, mz⟩, h.hash, hn.signature, hn.verify⟩, h.unused, h.signing, hg, h.linkLen, h.primary⟩, h.decoded, h.counter⟩
    intro y hy
    obtain ⟨a, b, c, -, -, d⟩ := hplain y hy
    exact ⟨a, b, c, d⟩
  · intro r0
    rw [h1.hashes, pieceHashes_start Γ.H r r0 h.first]

theorem Met0.feasible (h : Met0 Γ b i p ps rest link l z m u) (hn : IsSei Γ i n m) : feasible z.2 = true := by
  have mz := h.unsei hn
  unfold Validator.feasible
  rw [h.nalu, h.status]
  dsimp only
  rw [mz.2.2.2.1, mz.2.1, mz.1]
  rfl

/-- The GOP is validated and reported. -/
theorem met_reports (hΓ : Γ.Ok) (hn : IsSei Γ i n m) (h : Met Γ b i p ps rest link l z m u) :
    ∃ s3 s4 s' r, u.maybeValidate Γ.env n = .ok s3 () ∧ s3.copyLast = .ok s4 none ∧ s4.legacy = false ∧ s4.report = .ok s' (some r) ∧
      InSync Γ b rest i.counter (Γ.H p.bytes) s' ∧ GoodReport b i (ps.length + 1) rest.length r := by
  obtain ⟨r, x, xs, ys, g, h1, h2, href, e1, hp1, hp2, hdue0, hseg⟩ := met_due hn h.toMet0
  have hxsl : xs.length = ps.length := Rows.length h1.2
  have hdue : Due Γ i { u with gop := g } x xs ys z := by
    refine ⟨hdue0, ?_, ?_, ?_⟩
    · rcases h.linked with e | e
      · exact .inl (h.link.trans e.symm)
      · exact .inr (h.link.trans e)
    · obtain ⟨r0, e⟩ := h.gopHash
      rw [e, hseg r0]
    · have := h.num; omega
  obtain ⟨s1, hr1, hd⟩ := round_due hΓ hdue h.hasAuth
  -- the list
  have hlist : s1.list = l.map (after ((x :: xs).map Prod.fst) x.1 z.1) ++ [after ((x :: xs).map Prod.fst) x.1 z.1 z] := by
    rw [hd.list]
    show clearUsed (u.list.map _) = _
    rw [h.list]
    unfold clearUsed
    rw [List.map_map, List.map_append]
    rfl
  have hz := hdue.z_not
  have hzi : after ((x :: xs).map Prod.fst) x.1 z.1 z = (z.1, { z.2 with decoded := true, status := .ok, used := false }) := by
    unfold after settled
    rw [if_neg hz, if_pos rfl]
  rw [hzi] at hlist
  have hnd := hdue.nodupPend
  have hys : pending (l.map (after ((x :: xs).map Prod.fst) x.1 z.1)) = ys := by
    refine after_pending e1 (fun y hy => List.mem_map_of_mem hy) ?_
    intro y hy
    refine ⟨fun hc => ?_, fun hc => ?_, ?_⟩
    · rw [List.map_append, List.nodup_append] at hnd
      exact hnd.2.2 _ hc _ (List.mem_map_of_mem (List.mem_append_left _ hy)) rfl
    · rw [← List.append_assoc, List.map_append, List.nodup_append] at hnd
      exact hnd.2.2 _ (List.mem_map_of_mem (List.mem_append_right _ hy)) _ (List.mem_map_of_mem (f := Prod.fst) (List.mem_singleton_self z)) hc
    · refine h.unused y ?_
      have : y ∈ pending l := by rw [e1]; exact List.mem_append_right _ hy
      rw [h.list]; exact List.mem_append_left _ (mem_pending.1 this).1
  have hys1 : pending s1.list = ys := by
    rw [hlist, pending_append, hys, pending_cons, if_neg (by simp)]
    simp [pending]
  have hs1p : ∀ y ∈ s1.list, y.2.status = .P → y.2.isSei = false := by
    intro y hy hyp
    have : y ∈ ys := by rw [← hys1]; exact mem_pending.2 ⟨hy, hyp⟩
    exact (hdue0.plain y (by simp [this])).1
  have hs1s : s1.flags.signing = true := by rw [hd.flags]; exact h.signing
  obtain ⟨k, hk⟩ : ∃ k, Γ.env.rounds = k + 1 + 1 := ⟨Γ.env.rounds - 2, by have := hΓ.rounds; omega⟩
  obtain ⟨g', hg', hga⟩ := rounds_plain (env := Γ.env) (k := k) hs1s hs1p
  have hfe := h.toMet0.feasible hn
  have hmv : u.maybeValidate Γ.env n = .ok { s1 with gop := g' } () := by
    rw [maybeValidate_rounds h.legacy h.list h.knows.has hfe, hk]
    unfold rounds
    rw [hp1, hp2, if_pos rfl, hr1, Res.andThen_ok, hs1s, if_pos rfl]
    exact hg'
  obtain ⟨c, hc⟩ := copyNalu_sei hn
  have hfr : ∀ y ∈ l.map (after ((x :: xs).map Prod.fst) x.1 z.1), y.1 ≠ z.1 := by
    intro y hy e
    obtain ⟨w, hw, rfl⟩ := List.mem_map.1 hy
    rw [after_addr] at e
    have := h.wf.nodup
    rw [h.list, List.map_append, List.nodup_append] at this
    exact this.2.2 _ (List.mem_map_of_mem hw) _ (List.mem_map_of_mem (f := Prod.fst) (List.mem_singleton_self z)) e
  have hcopy := copyLast_last (s := { s1 with gop := g' }) (c := c) hlist hfr h.nalu (by
    show copyNalu s1.d.hashAlgoKnown m = _
    rw [hd.knows.known]; exact hc)
  obtain ⟨L, hL⟩ : ∃ L, L = l.map (after ((x :: xs).map Prod.fst) x.1 z.1) ++ [(z.1, { z.2 with decoded := true, status := .ok, used := false, nalu := some c, taken := true })] := ⟨_, rfl⟩
  obtain ⟨s4, hs4⟩ : ∃ s4, s4 = { s1 with gop := g', list := L } := ⟨_, rfl⟩
  have hcopy' : ({ s1 with gop := g' } : Validator).copyLast = .ok s4 none := by
    rw [hs4, hL]; exact hcopy
  have hrl : s4.rep = s1.rep := by rw [hs4]
  have h4l : s4.list = L := by rw [hs4]
  obtain ⟨r', hu1, hu2', hu3, hu4⟩ := updateReport_ok (r := s4.rep) s4.list (by rw [hrl, hd.thisVersion]; exact h.version)
  have hu2 : b = true → r'.acc.auth = .ok := fun hb => hu2' (by rw [hrl]; exact hd.auth) (by rw [hrl, hd.acc]; exact h.acc hb)
  have hrep : s4.report = .ok { s4 with rep := { (getReport r' (cleanUp L).length).1 with latest := { (getReport r' (cleanUp L).length).1.latest with hasTs := false } }, list := cleanUp L }
      (some (getReport r' (cleanUp L).length).2) := by
    unfold report
    rw [if_pos (by rw [hs4]; show s1.flags.hasAuth = true; rw [hd.flags]), hu1, h4l]
  have hLp : pending L = ys := by
    rw [hL, pending_append, hys, pending_cons, if_neg (by simp)]
    simp [pending]
  have hyl : ys.length = rest.length := Rows.length h2
  have hLgood : ∀ y ∈ L, y.2.status ≠ .N ∧ y.2.status ≠ .M ∧ y.2.status ≠ .E := by
    intro y hy
    rw [hL] at hy
    rcases List.mem_append.1 hy with hy | hy
    · obtain ⟨w, hw, rfl⟩ := List.mem_map.1 hy
      rcases after_status ((x :: xs).map Prod.fst) x.1 z.1 w with e | e
      · rw [e]; exact h.good w (by rw [h.list]; exact List.mem_append_left _ hw)
      · rw [e]; decide
    · rw [List.mem_singleton.1 hy]; simp
  have hLunused : ∀ y ∈ L, y.2.used = false := by
    intro y hy
    rw [hL] at hy
    rcases List.mem_append.1 hy with hy | hy
    · obtain ⟨w, hw, rfl⟩ := List.mem_map.1 hy
      rfl
    · rw [List.mem_singleton.1 hy]
  have hLwf : WF L u.brk := by
    refine WF.of_addr h.wf ?_
    rw [hL, h.list, List.map_append, List.map_append, List.map_map]
    congr 1
    exact List.map_congr_left fun w _ => after_addr _ _ _ w
  have hnumP : numPending s1.list = ys.length := by
    rw [← hys1]; rfl
  refine ⟨_, s4, _, _, hmv, hcopy', by rw [hs4]; exact hd.legacy.trans h.legacy, hrep, ?_, ?_⟩
  · subst hs4
    refine ⟨hd.codec.trans h.codec, hd.legacy.trans h.legacy, hs1s, hga, ?_, ?_, ?_, ?_, ?_, ?_, hd.latestGop, hd.linkLen, ?_, .inr hd.primary, hu3, fun hb => .inr (hu2 hb), ?_, hd.synced, ?_⟩
    · refine hd.knows.same_of rfl rfl rfl ?_
      show r'.latest.keyChanged = false
      rw [hu4]; exact hd.knows.same
    · show WF (cleanUp L) s1.brk
      rw [hd.brk]
      exact WF.sublist hLwf (cleanUp_sublist L)
    · refine ⟨refAfter Γ.H r (p :: ps), ?_, ?_⟩
      · show Rows Γ _ rest (pending (cleanUp L))
        rw [pending_cleanUp, hLp]; exact h2
      · show _ = s1.buddies.take Γ.size
        rw [hd.buddies, ← refAfter_append]; exact href
    · intro y hy; exact hLunused y ((cleanUp_sublist L).subset hy)
    · intro y hy; exact hLgood y ((cleanUp_sublist L).subset hy)
    · show 2 * Γ.size ≤ s1.buddies.length
      rw [hd.buddies]; exact h.budLen
    · rw [hd.link, h1.1.hash]
      unfold Scene.hash
      rw [if_pos h.first]
    · show s1.flags.first = false
      rw [hd.flags]
    · intro y hy
      have hy := (cleanUp_sublist L).subset hy
      rw [hL] at hy
      rcases List.mem_append.1 hy with hy | hy
      · obtain ⟨w, hw, rfl⟩ := List.mem_map.1 hy
        exact after_passed (h.seen w hw) (fun e => hfr _ (List.mem_map_of_mem hw) (by rw [after_addr]; exact e)) fun hA hne => hdue0.rest w ((List.mem_cons.1 (hdue0.in_seg (by show w ∈ u.list; rw [h.list]; exact List.mem_append_left _ hw) hA)).resolve_left fun e => hne (by rw [e]))
      · rw [List.mem_singleton.1 hy]
        exact ⟨c, rfl, fun _ hf => absurd hf (by rw [(copyNalu_first hc), (h.toMet0.unsei hn).2.2.2.2.1]; decide)⟩
  · refine ⟨?_, hu2, ?_, ?_, ?_, ?_, validationStr L, ?_, ?_, ?_, ?_⟩
    · show r'.latest.auth = .ok
      rw [hu4, hrl]; exact hd.auth
    · show r'.latest.keyChanged = false
      rw [hu4, hrl]; exact hd.knows.same
    · show r'.latest.expected = _
      rw [hu4, hrl]; exact hd.expected
    · show r'.latest.received = _
      rw [hu4, hrl]
      refine hd.received.trans ?_
      rw [hxsl]; simp
    · show r'.latest.pending = _
      rw [hu4, hrl]
      refine hd.pending.trans ?_
      rw [hnumP, hyl]
    · show some (r'.latest.validationStr.getD []) = _
      rw [hu4, h4l]; rfl
    · intro ch hch
      unfold validationStr at hch
      obtain ⟨y, hy, rfl⟩ := List.mem_map.1 hch
      have := hLgood y hy
      generalize y.2.status = st at this
      cases st <;> simp_all [Status.char]
    · rw [validationStr_count .P 'P' rfl (by intro t; cases t <;> simp [Status.char])]
      show (pending L).length = _
      rw [hLp, hyl]
    · rw [validationStr_count .ok '.' rfl (by intro t; cases t <;> simp [Status.char]), hL, List.filter_append, List.length_append]
      have e3 : ((x :: xs).map (after ((x :: xs).map Prod.fst) x.1 z.1)).length ≤ ((l.map (after ((x :: xs).map Prod.fst) x.1 z.1)).filter fun y => y.2.status = .ok).length := by
        have hsub : (x :: xs).Sublist l := by
          refine List.Sublist.trans ?_ (List.filter_sublist (p := fun y => decide (y.2.status = Status.P)))
          show List.Sublist _ (pending l)
          rw [e1]; exact List.sublist_append_left _ _
        have := (hsub.map (after ((x :: xs).map Prod.fst) x.1 z.1)).filter fun y => decide (y.2.status = Status.ok)
        rw [List.filter_eq_self.2] at this
        · exact this.length_le
        · intro y hy
          obtain ⟨w, hw, rfl⟩ := List.mem_map.1 hy
          have : (after ((x :: xs).map Prod.fst) x.1 z.1 w).2.status = .ok := by
            unfold after settled
            rw [if_pos (List.mem_map_of_mem hw)]
          rw [this]; rfl
      rw [List.length_map, List.length_cons] at e3
      have e4 : ∀ v : Nat × Item, v.2.status = .ok → ([v].filter fun y => decide (y.2.status = .ok)).length = 1 := by
        intro v hv; simp [hv]
      rw [e4 _ rfl]
      omega

theorem register_sei (hΓ : Γ.Ok) (hn : IsSei Γ i n m) {a : Nat} (e : u.list = l ++ [(a, newItem (some n))]) (hfr : ∀ x ∈ l, x.1 ≠ a) (ha : Alg1 Γ u) :
    u.register Γ.env a n = .ok { u with list := l ++ [(a, { newItem (some n) with nalu := some m, hash := ovl (Γ.H i.doc) [] })] } () := by
  have hset : u.list.set a (fun i => { i with nalu := some m }) = l ++ [(a, { newItem (some n) with nalu := some m })] := by
    rw [e, set_end hfr]
  have hv := hn.valid
  unfold register
  rw [if_neg (by omega), if_neg (by omega), hn.update]
  dsimp only
  rw [hset, find_end hfr]
  dsimp only
  unfold hashItem
  dsimp only
  have hm : m.isHashable = true ∧ m.gopSei = true ∧ m.firstInGop = false ∧ m.hashable = i.doc := by
    rw [hn.same]; exact ⟨hn.hashable, hn.sei, hn.first, rfl⟩
  rw [if_neg (by rw [hm.1, ha.known]; decide)]
  have hh : hashNalu Γ.env { u with list := l ++ [(a, { newItem (some n) with nalu := some m })] } m = .ok ({ u with list := l ++ [(a, { newItem (some n) with nalu := some m })] }, Γ.H i.doc) := by
    unfold hashNalu
    rw [hm.2.2.2, digest_eq hΓ (s := { u with list := l ++ [(a, { newItem (some n) with nalu := some m })] }) ⟨ha.known, ha.size, ha.typ⟩ hn.doc]
    simp only [Out.bind_ok, hm.2.1, if_true]
  rw [hh]
  dsimp only
  rw [if_neg (by rw [hm.2.2.1, hm.2.1]; simp), set_end hfr]
  rfl

theorem sei_status (hn : IsSei Γ i n m) : (newItem (some n)).status = .P := by
  have := hn.valid
  unfold newItem statusOf
  dsimp only
  rw [if_neg (by omega), if_neg (by omega), hn.hashable]
  rfl

/-- The SEI of the oldest GOP that is not validated. -/
theorem sync_sei (hΓ : Γ.Ok) {s : Validator} (h0 : InSync Γ b (p :: ps ++ rest) cnt link s) {d : Bytes} (hd : d ≠ []) (hp : parseNalu d Γ.codec true true = .ok n)
    (hn : IsSei Γ i n m) (first : p.first = true) (others : ∀ q ∈ ps, q.first = false) (next : ∀ q t, rest = q :: t → q.first = true)
    (counter : i.counter = cnt + 1) (linked : i.linked = link) (gopHash : ∃ r0, i.gopHash = Γ.H (pieceHashes Γ.H r0 (p :: ps)).flatten)
    (num : i.num.toNat ≤ ps.length + 1) :
    ∃ s' r, s.add Γ.env d = .ok s' (some r) ∧ InSync Γ b rest i.counter (Γ.H p.bytes) s' ∧ GoodReport b i (ps.length + 1) rest.length r := by
  have h := h0.opened
  have hfr := fresh_last h.wf
  have e1 := register_sei hΓ hn (u := s.opened.entered n) (l := s.opened.list) (a := s.opened.brk) rfl hfr ⟨h.knows.known, h.knows.size, h.knows.typ⟩
  have hmet : Met Γ b i p ps rest link s.opened.list (s.opened.brk, { newItem (some n) with nalu := some m, hash := ovl (Γ.H i.doc) [] }) m
      { s.opened.entered n with list := s.opened.list ++ [(s.opened.brk, { newItem (some n) with nalu := some m, hash := ovl (Γ.H i.doc) [] })] } := by
    refine ⟨⟨h.codec, h.legacy, ?_, rfl, h.knows.same_of rfl rfl rfl h.knows.same, WF.append h.wf _, rfl, h.rows, ?_, ?_, h.budLen, h.linkLen, h.link,
      h.primary, h.version, h.acc, first, others, next, sei_status hn, rfl, rfl, buf_ovl (hΓ.len _), .inl (by rw [counter, ← h.count]; rfl), h.seen⟩, .inl linked, gopHash, num⟩
    · show (s.flags.signing || n.gopSei) = true
      rw [h0.signing]; rfl
    · intro x hx
      rcases List.mem_append.1 hx with hx | hx
      · exact h.unused x hx
      · rw [List.mem_singleton.1 hx]; rfl
    · intro x hx
      rcases List.mem_append.1 hx with hx | hx
      · exact h.good x hx
      · rw [List.mem_singleton.1 hx]
        show (newItem (some n)).status ≠ .N ∧ (newItem (some n)).status ≠ .M ∧ (newItem (some n)).status ≠ .E
        rw [sei_status hn]; decide
  obtain ⟨s3, s4, s', r, q1, q2, q3, q4, q5, q6⟩ := met_reports hΓ hn hmet
  have hv := hn.valid
  have hbody : s.opened.addBody Γ.env n = .ok s3 () := by
    rw [addBody_entered (by omega), e1, Res.andThen_ok, hashAlgoBlock_known (u := { s.opened.entered n with list := s.opened.list ++ [(s.opened.brk, { newItem (some n) with nalu := some m, hash := ovl (Γ.H i.doc) [] })] }) h.knows.known, Res.andThen_ok, q1]
  exact ⟨s', r, (add_ok hd h0.legacy (by rw [h0.codec]; exact hp) hbody q2 q3).trans q4, q5, q6⟩

end Validator
end SV
