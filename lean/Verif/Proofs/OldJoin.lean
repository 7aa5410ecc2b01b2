import Verif.Proofs.OldRun
/-! A session that joins in the middle of a stream of the older format: the first SEI signs NAL units that were not received. -/
namespace SV
open Spec
namespace Old
open Legacy
open Validator (Scene Knows IsPiece Skips copyNalu_small updateHashable_plain)

variable {Γ : Scene} {h own doc : Bytes} {i : Info} {pre post : LList} {xs xi : Nat × LItem}

theorem Holds.all_rest {l : LList} (g : Holds Γ [] l) : ∀ x ∈ l, Rests x := by
  induction l with
  | nil => intro x hx; cases hx
  | cons y l ih =>
    rcases g with ⟨g1, g2⟩ | ⟨b, t, hb, -⟩
    · intro x hx
      rcases List.mem_cons.1 hx with rfl | hx
      · exact g1
      · exact ih g2 x hx
    · cases hb

theorem markAll_rests {l : LList} (g : ∀ x ∈ l, Rests x) (st : Status) : markAll st l = l := by
  unfold markAll
  conv => rhs; rw [← List.map_id l]
  exact List.map_congr_left fun x hx => if_neg (g x hx).not

/-- The SEI signs NAL units other than the one with the hash `h`. -/
structure Alien (Γ : Scene) (h doc : Bytes) (i : Info) : Prop where
  num : i.num ≠ 1
  signature : i.signature ≠ []
  verify : i.typ = 1 ∧ (∃ hashes : List Bytes, i.list = hashes.flatten ∧ (∀ b ∈ hashes, b.length = Γ.size) ∧ h ∉ hashes) ∧ Γ.env.verify Γ.key i.signature (Γ.H doc) = 1 ∨
    i.typ = 0 ∧ Γ.size = 32 ∧ Γ.env.verify Γ.key i.signature (chain Γ (Γ.H [1]) [h, Γ.H doc]) = 0

theorem Alien.checks (g : Alien Γ h doc i) : Checks Γ (if i.typ = 1 then 1 else 0) [] h doc i := by
  refine ⟨g.signature, ?_⟩
  rcases g.verify with ⟨a, -, c⟩ | ⟨a, b, c⟩
  · exact .inl ⟨a, by rw [if_pos a]; exact c⟩
  · exact .inr ⟨a, b, by rw [if_neg (by rw [a]; decide)]; exact c⟩

theorem search_none {hashes : List Bytes} (hn : h ∉ hashes) : Validator.searchFrom h hashes 0 = hashes.length := by
  unfold Validator.searchFrom
  rw [List.drop_zero, Nat.zero_add]
  congr 1
  have : ∀ l : List Bytes, h ∉ l → l.takeWhile (fun x => decide (x ≠ h)) = l := by
    intro l
    induction l with
    | nil => intro _; rfl
    | cons x l ih =>
      intro hl
      rw [List.takeWhile_cons, if_pos (by simp; exact fun e => hl (e ▸ List.mem_cons_self)), ih fun e => hl (List.mem_cons_of_mem _ e)]
  exact this _ hn

/-- The loop finds nothing. -/
theorem hashListLoop_alien {hashes : List Bytes} {brk : Nat} (hp : ∀ x ∈ pre, Rests x) (hm : IsMsg Γ doc xs) (hq : ∀ x ∈ post, Rests x) (hi : IsNext Γ h own xi) (hn : xs.1 ∉ pre.map Prod.fst)
    (ha : h ∉ hashes) :
    hashListLoop Γ.size hashes xs.1 (pre ++ xs :: (post ++ [xi])) none { brk := brk } =
      .ok (pre ++ xs :: (post ++ [lastItem false xi]), { invalid := 1, count := 1, latest := -1, compare := hashes.length, lastUsed := some xi.1, brk := brk }) := by
  obtain ⟨n, n1, -, -, n4, -, n6⟩ := hm.nalu
  obtain ⟨k, k1, -, -, k4, -, k6, -⟩ := hi.nalu
  obtain ⟨b, b1, -⟩ := hi.second
  have s1 : hashListLoop Γ.size hashes xs.1 (xs :: (post ++ [xi])) (lastAddr none pre) { brk := brk } =
      ((hashListLoop Γ.size hashes xs.1 (post ++ [xi]) (some xs.1) { brk := brk }).bind fun p => .ok (xs :: p.1, p.2)) := by
    conv => lhs; unfold hashListLoop
    rw [if_neg (by rw [hm.status]; decide)]
    simp only [n1, n4, n6, decide_eq_false (lastAddr_ne (prev := none) (by simp) hn)]
    rw [if_pos trivial, if_neg (by simp)]
    cases hashListLoop Γ.size hashes xs.1 (post ++ [xi]) (some xs.1) { brk := brk } <;> rfl
  have s2 : ∀ prev, hashListLoop Γ.size hashes xs.1 [xi] prev { brk := brk } =
      .ok ([lastItem false xi], { invalid := 1, count := 1, latest := -1, compare := hashes.length, lastUsed := some xi.1, brk := brk }) := by
    intro prev
    conv => lhs; unfold hashListLoop
    rw [if_neg (by rw [hi.status]; decide)]
    have hs : Validator.searchFrom h hashes 0 = hashes.length := search_none ha
    have hu : Legacy.unmatched xi.2 = (lastItem false xi).2 := by
      unfold Legacy.unmatched
      rw [if_pos (by rw [b1, hi.need]; rfl)]
      rfl
    simp only [k1, k4, k6, hi.need, Bool.not_false, Bool.and_true, Bool.or_true]
    rw [if_neg (by decide)]
    simp only [Bool.false_eq_true, if_false, hi.hash, show ((-1 : Int) + 1).toNat = 0 from rfl, hs, Nat.lt_irrefl, decide_false, if_true, List.range'_zero, List.map_nil, List.nil_append, Nat.add_zero, k1, hu]
    rfl
  rw [hashListLoop_rests pre _ _ _ hp, s1, hashListLoop_rests post [xi] _ _ hq, s2]
  rfl

/-- The items after the verification. -/
def alienList (st : Status) (pre : LList) (xs : Nat × LItem) (post : LList) (xi : Nat × LItem) : LList :=
  pre ++ (xs.1, { xs.2 with decoded := true, status := st }) :: (post ++ [lastItem false xi])

theorem hashListEnd_none {s : Legacy} {y : Nat × LItem} {r : LList} {m : Match} {n sei a : Nat} (hl : s.list = y :: r) (hsec : y.2.second = none) (hyn : y.1 ∉ r.map Prod.fst)
    (h1 : m.latest = -1) (h2 : m.lastUsed = some a) (h3 : m.compare = n) :
    ∃ ms brk, hashListEnd s m n sei =
        ({ s with list := (LList.set (ms ++ s.list) a fun i => { i with bad := true, need := true }).set sei fun i => { i with status := .ok }, brk := brk }, true, (n : Int), (m.count : Int)) ∧
      (∀ x ∈ ms, x.2 = LItem.missing) ∧ s.brk ≤ brk ∧ ∀ a ∈ ms.map Prod.fst, s.brk ≤ a := by
  unfold hashListEnd
  rw [if_pos h1, hl, h2]
  dsimp only
  rw [if_pos (by rw [h1, h3]; omega), hsec]
  dsimp only
  unfold Legacy.addMissing
  by_cases hneg : (n : Int) - m.invalid < 0
  · rw [if_pos hneg, hl]
    exact ⟨[], s.brk, rfl, (by intro x hx; cases hx), Nat.le_refl _, (by intro x hx; cases hx)⟩
  · rw [if_neg hneg]
    dsimp only
    have := insertMissing_at (l := []) (r := r) (x := y) (by simp) hyn LItem.missing s.brk ((n : Int) - m.invalid).toNat ((none : Option Bytes).isSome && !y.2.need)
    rw [List.nil_append, List.nil_append] at this
    rw [hl, this, if_neg (by simp)]
    refine ⟨(List.range' s.brk ((n : Int) - m.invalid).toNat).map fun a => (a, LItem.missing), s.brk + ((n : Int) - m.invalid).toNat, ?_, ?_, Nat.le_add_right _ _, ?_⟩
    · rw [List.append_assoc]; rfl
    · intro x hx
      obtain ⟨a, -, rfl⟩ := List.mem_map.1 hx
      rfl
    · intro a ha
      rw [List.map_map] at ha
      obtain ⟨k, hk, rfl⟩ := List.mem_map.1 ha
      exact (List.mem_range'_1.1 hk).1

theorem withHashList_alien (hΓ : Γ.Ok) {s : Legacy} {hashes : List Bytes} (hk : Knows Γ s.v) (f : Full Γ [] h own doc i pre xs post xi)
    (hl : s.list = pre ++ (xs.1, { xs.2 with decoded := true }) :: (post ++ [xi])) (ht : s.v.d.hashList = hashes.flatten) (hsz : ∀ b ∈ hashes, b.length = Γ.size) (ha : h ∉ hashes)
    (hv : s.v.verified = 1) (hb : xi.1 < s.brk) (hbs : xs.1 < s.brk) :
    ∃ m brk e r, s.withHashList = .ok { s with list := m ++ alienList .ok pre xs post xi, brk := brk } (true, e, r) ∧ (∀ x ∈ m, x.2 = LItem.missing) ∧ s.brk ≤ brk := by
  obtain ⟨a1, a2, a3⟩ := f.addrs
  have hpos := hΓ.pos
  have hrest := f.rows.all_rest
  have hm : IsMsg Γ doc (xs.1, { xs.2 with decoded := true }) := f.msg.toIsMsg.decode
  unfold Legacy.withHashList
  rw [if_neg (by rw [hk.size]; omega), show Legacy.nextSei s.list = some (xs.1, { xs.2 with decoded := true }) by rw [hl]; exact nextSei_msg f.rows.sei hm.isSei hm.status]
  dsimp only
  rw [if_neg (by rw [hv]; decide), if_neg (by rw [hv]; decide), ht, hk.size, chunk_flatten hpos hsz, hl]
  have hloop := hashListLoop_alien (brk := s.brk) hrest hm f.rest f.next a1 ha
  dsimp only at hloop
  rw [hloop]
  dsimp only
  have hxi : xi.1 ∉ (pre ++ xs :: post).map Prod.fst := by
    have := f.addr
    rw [show pre ++ xs :: (post ++ [xi]) = (pre ++ xs :: post) ++ [xi] by simp, List.map_append, List.nodup_append] at this
    exact fun hx => this.2.2 _ hx _ (List.mem_singleton.2 rfl) rfl
  obtain ⟨y, r, hy, hsec, hyn⟩ : ∃ y r, pre ++ (xs.1, ({ xs.2 with decoded := true } : LItem)) :: (post ++ [lastItem false xi]) = y :: r ∧ y.2.second = none ∧ y.1 ∉ r.map Prod.fst := by
    have hnd : ((pre ++ (xs.1, ({ xs.2 with decoded := true } : LItem)) :: (post ++ [lastItem false xi])).map Prod.fst).Nodup := by
      have := f.addr
      simpa [lastItem] using this
    cases pre with
    | nil =>
      refine ⟨_, _, rfl, f.msg.second, ?_⟩
      exact (List.nodup_cons.1 hnd).1
    | cons y r =>
      refine ⟨y, _, rfl, (hrest y List.mem_cons_self).second, ?_⟩
      exact (List.nodup_cons.1 hnd).1
  obtain ⟨m, brk, hadd, hmis, hlt, hmb⟩ := hashListEnd_none (s := { s with list := pre ++ (xs.1, { xs.2 with decoded := true }) :: (post ++ [lastItem false xi]), brk := s.brk })
    (m := { invalid := 1, count := 1, latest := -1, compare := hashes.length, lastUsed := some xi.1, brk := s.brk }) (n := hashes.length) (sei := xs.1) hy hsec hyn rfl rfl rfl
  replace hlt : s.brk ≤ brk := hlt
  replace hmb : ∀ a ∈ m.map Prod.fst, s.brk ≤ a := hmb
  refine ⟨m, brk, (hashes.length : Int), 1, ?_, hmis, hlt⟩
  dsimp only at hadd
  rw [hadd]
  have q1 : LList.set (m ++ (pre ++ (xs.1, ({ xs.2 with decoded := true } : LItem)) :: (post ++ [lastItem false xi]))) xi.1 (fun i => { i with bad := true, need := true }) =
      m ++ (pre ++ (xs.1, { xs.2 with decoded := true }) :: (post ++ [lastItem false xi])) := by
    have := set_last (l := m ++ (pre ++ (xs.1, ({ xs.2 with decoded := true } : LItem)) :: post)) (a := xi.1) (i := (lastItem false xi).2) (by
      rw [List.map_append, List.mem_append]
      rintro (hc | hc)
      · have := hmb _ hc; omega
      · exact hxi (by simpa using hc)) (fun i => { i with bad := true, need := true })
    simpa [lastItem] using this
  have q2 : LList.set (m ++ (pre ++ (xs.1, ({ xs.2 with decoded := true } : LItem)) :: (post ++ [lastItem false xi]))) xs.1 (fun i => { i with status := .ok }) = m ++ alienList .ok pre xs post xi := by
    have := set_mid (l := m ++ pre) (x := (xs.1, ({ xs.2 with decoded := true } : LItem))) (r := post ++ [lastItem false xi]) (by
      rw [List.map_append, List.mem_append]
      rintro (hc | hc)
      · have := hmb _ hc; dsimp only at this; omega
      · exact a1 hc) (by
        have := f.addrs2
        simpa [lastItem] using this) (fun i => { i with status := .ok })
    rw [List.append_assoc] at this
    dsimp only at this
    rw [this, List.append_assoc]
    rfl
  dsimp only at q1 q2 ⊢
  rw [q1, q2]
  rfl

theorem verifyGop_alien (hΓ : Γ.Ok) {s t : Legacy} (f : Full Γ [] h own doc i pre xs post xi) (ha : Alien Γ h doc i) (ht : Fresh Γ i s t) (hl : t.list = readList i.typ pre xs post xi)
    (hv : t.v.verified = if i.typ = 1 then 1 else 0) (hf : t.v.flags.first = true) (hb : xi.1 < t.brk) (hbs : xs.1 < t.brk) :
    ∃ m st brk e r, t.verifyGop = .ok { t with list := m ++ alienList st pre xs post xi, brk := brk } (true, e, r) ∧ (∀ x ∈ m, x.2 = LItem.missing) ∧ (st = .ok ∨ st = .N) ∧ t.brk ≤ brk := by
  unfold verifyGop
  rw [if_neg (by rw [ht.lost]; simp), ht.told.typ]
  unfold readList at hl
  rcases ha.verify with ⟨h1, ⟨hashes, h2, h3, h4⟩, -⟩ | ⟨h1, -, -⟩
  · rw [if_pos h1] at hl hv ⊢
    obtain ⟨m, brk, e, r, g1, g2, g3⟩ := withHashList_alien hΓ ht.knows f hl ((ht.told.list h1).trans h2) h3 h4 hv hb hbs
    exact ⟨m, .ok, brk, e, r, g1, g2, .inl rfl, g3⟩
  · rw [if_neg (by rw [h1]; decide)] at hl hv ⊢
    obtain ⟨l, brk, g1, -, -, g4, g5⟩ := withGopHash_any (b := false) f hl (fun hb => by cases hb) hv hb
    refine ⟨[], .N, brk, (t.v.d.numSent.toNat : Int), (([] : List Bytes).length : Int) + 1, ?_, (by intro x hx; cases hx), .inr rfl, g4⟩
    rw [g1, g5 hf]
    unfold endList alienList
    rw [markAll_rests f.rows.all_rest]
    simp

/-! ### The verdict is taken back -/

/-- The items after that. -/
def joinList (pre : LList) (xs : Nat × LItem) (post : LList) : LList := pre ++ (xs.1, { xs.2 with decoded := true, status := .U }) :: post

theorem removeMissing_rests {p : LList} (hp : ∀ x ∈ p, Rests x) : ∀ {r : LList} {b pend dec : Bool}, (pend && dec) = false → Legacy.removeMissingFrom (p ++ r) b pend dec = p ++ Legacy.removeMissingFrom r (b && p.isEmpty) pend dec := by
  induction p with
  | nil => intro r b pend dec _; simp
  | cons x p ih =>
    intro r b pend dec hpd
    obtain ⟨a, i⟩ := x
    have hx := hp _ List.mem_cons_self
    have hb : i.bad = false := hx.bad
    have hd : i.decoded = false := hx.decoded
    have hs : i.status ≠ .M ∧ i.status ≠ .P := by rcases hx.status with e | e <;> (dsimp only at e; rw [e]; decide)
    rw [List.cons_append]
    conv => lhs; unfold Legacy.removeMissingFrom
    rw [hpd, if_neg (by decide), if_neg (fun hc => hs.1 hc.1)]
    dsimp only
    rw [hd, Bool.false_and, if_neg (by decide), decide_eq_false hs.2, Bool.or_false, Bool.or_false, ih (fun y hy => hp y (List.mem_cons_of_mem _ hy)) hpd, hb]
    have hi : ({ i with bad := false && pend, decoded := false } : LItem) = i := by
      rw [Bool.false_and]
      cases i
      cases hb
      cases hd
      rfl
    rw [hi]
    simp

theorem removeMissing_missing {m : LList} (hm : ∀ x ∈ m, x.2 = LItem.missing) : ∀ {r : LList}, Legacy.removeMissingFrom (m ++ r) true false false = Legacy.removeMissingFrom r true false false := by
  induction m with
  | nil => intro r; rfl
  | cons x m ih =>
    intro r
    rw [List.cons_append]
    conv => lhs; unfold Legacy.removeMissingFrom
    rw [if_neg (by decide), if_pos ⟨by rw [hm x List.mem_cons_self]; rfl, rfl⟩]
    exact ih fun y hy => hm y (List.mem_cons_of_mem _ hy)

theorem removeMissing_alien {m : LList} {st : Status} (f : Full Γ [] h own doc i pre xs post xi) (hm : ∀ x ∈ m, x.2 = LItem.missing) (hst : st = .ok ∨ st = .N) :
    Legacy.removeMissing (m ++ alienList st pre xs post xi) = joinList pre xs post ++ [lastItem true xi] := by
  unfold Legacy.removeMissing alienList joinList
  rw [removeMissing_missing hm, removeMissing_rests f.rows.all_rest rfl]
  conv => lhs; unfold Legacy.removeMissingFrom
  rw [if_neg (by decide)]
  dsimp only
  have hs : st ≠ .M ∧ st ≠ .U := by rcases hst with e | e <;> rw [e] <;> decide
  rw [if_neg (fun hc => hs.1 hc.1), decide_eq_true hs.2, Bool.and_true, if_pos rfl, removeMissing_rests f.rest rfl, f.msg.bad]
  dsimp only
  conv => lhs; unfold Legacy.removeMissingFrom
  rw [if_neg (by simp)]
  dsimp only
  have hxs : (lastItem false xi).2.status = .P := f.next.status
  have hxd : (lastItem false xi).2.decoded = false := f.next.decoded
  rw [hxs, if_neg (fun hc => by cases hc.1), hxd, Bool.false_and, if_neg (by decide)]
  conv => lhs; unfold Legacy.removeMissingFrom
  simp [lastItem, f.next.decoded, f.next.status, f.msg.bad]

theorem getStats_alien {m : LList} {st : Status} (f : Full Γ [] h own doc i pre xs post xi) (hm : ∀ x ∈ m, x.2 = LItem.missing) :
    (Legacy.getStats (m ++ alienList st pre xs post xi)).hasValid = false := by
  unfold Legacy.getStats alienList
  dsimp only
  rw [List.any_eq_false]
  intro x hx
  have hrest : ∀ y, Rests y → ¬ ((decide (y.2.status = .ok) && !y.2.isSei) || (decide (y.2.status = .P) && y.2.need && !y.2.bad)) = true := by
    intro y hy
    rcases hy.status with e | e <;> rw [e] <;> simp
  simp only [List.mem_append, List.mem_cons, List.not_mem_nil, or_false] at hx
  rcases hx with hx | hx | rfl | hx | rfl
  · rw [hm x hx]; decide
  · exact hrest x (f.rows.all_rest x hx)
  · obtain ⟨n, n1, -, -, n4, -⟩ := f.msg.nalu
    simp [LItem.isSei, n1, n4, f.msg.need]
  · exact hrest x (f.rest x hx)
  · simp [lastItem, f.next.status]

theorem verdict_alien {st : Stats} {p : Bool × Int × Int} (h : st.hasValid = false) : verdict st true p ≠ .ok := by
  unfold verdict
  dsimp only
  split
  · decide
  · next hc => exact fun e => hc ⟨rfl, e, h⟩

/-- The state after the round. -/
structure Joined (Γ : Scene) (i : Info) (s t : Legacy) : Prop extends Kept s t where
  knows : Knows Γ t.v
  counter : t.v.d.gopCounter = i.counter
  flags : t.v.flags = { s.v.flags with first := false, hasAuth := true }
  hashes : 64 ≤ t.hashes.length
  auth : t.v.rep.latest.auth = .signaturePresent
  expected : t.v.rep.latest.expected = -1
  received : t.v.rep.latest.received = -1
  pending : t.v.rep.latest.pending = 1

theorem joinList_mem (f : Full Γ [] h own doc i pre xs post xi) : ∀ y ∈ joinList pre xs post, (y.2.status = .U ∨ y.2.status = .ignored) ∧ y.2.need = false ∧ y.2.dead = false := by
  intro y hy
  unfold joinList at hy
  rw [List.mem_append, List.mem_cons] at hy
  rcases hy with hy | rfl | hy
  · have := f.rows.all_rest y hy; exact ⟨this.status, this.need, this.dead⟩
  · exact ⟨.inl rfl, f.msg.need, f.msg.dead⟩
  · have := f.rest y hy; exact ⟨this.status, this.need, this.dead⟩

theorem joinList_addr (f : Full Γ [] h own doc i pre xs post xi) : xi.1 ∉ (joinList pre xs post).map Prod.fst := by
  have := f.addr
  rw [show pre ++ xs :: (post ++ [xi]) = (pre ++ xs :: post) ++ [xi] by simp, List.map_append, List.nodup_append] at this
  refine fun hx => this.2.2 _ ?_ _ (List.mem_singleton.2 rfl) rfl
  unfold joinList at hx
  rw [List.map_append, List.map_cons] at hx ⊢
  exact hx

theorem conclude_join {s t : Legacy} {m : LList} {st : Status} {p : Bool × Int × Int} (f : Full Γ [] h own doc i pre xs post xi) (ht : Fresh Γ i s t) (hm : ∀ x ∈ m, x.2 = LItem.missing)
    (hst : st = .ok ∨ st = .N) (hl : t.list = m ++ alienList st pre xs post xi) (hsig : s.v.flags.signing = true) (hf : s.v.flags.first = true) (hr : s.v.flags.resetFirst = false) (hnum : i.num ≠ 1) :
    Joined Γ i s (t.conclude p).finish ∧ (t.conclude p).finish.list = joinList pre xs post ++ [lastItem true xi] := by
  have e : t.conclude p = { t with list := joinList pre xs post ++ [lastItem true xi], v := { t.v with
      synced := false
      rep := { t.v.rep with latest := { t.v.rep.latest with auth := .signaturePresent, expected := -1, received := -1 } } } } := by
    have hv := verdict_alien (p := p) (getStats_alien (st := st) f hm)
    have hf' : t.v.flags.first = true := by rw [ht.flags]; exact hf
    unfold conclude
    dsimp only
    rw [hl, hf', decide_eq_false hv, decide_eq_true hv, ht.knows.same, removeMissing_alien f hm hst, ht.told.num, decide_eq_false hnum]
    have hfl : ({ hasAuth := t.v.flags.hasAuth, signing := t.v.flags.signing, firstSei := t.v.flags.firstSei } : VFlags) = t.v.flags := by
      have hr' : t.v.flags.resetFirst = false := by rw [ht.flags]; exact hr
      generalize t.v.flags = w at *
      cases w
      cases hr'
      cases hf'
      rfl
    simp [hfl]
  rw [e]
  have hr' : t.v.flags.resetFirst = false := by rw [ht.flags]; exact hr
  have hs' : t.v.flags.signing = true := by rw [ht.flags]; exact hsig
  have hpend : Legacy.numPending (joinList pre xs post ++ [lastItem true xi]) = 1 := by
    unfold Legacy.numPending
    rw [List.filter_append, List.filter_eq_nil_iff.2 (fun x hx => by rcases (joinList_mem f x hx).1 with e | e <;> rw [e] <;> decide), List.nil_append,
      List.filter_cons_of_pos (by rw [show (lastItem true xi).2.status = .P from f.next.status]; rfl)]
    rfl
  unfold finish
  dsimp only
  rw [if_neg (by rw [hr']; decide), hpend]
  refine ⟨⟨⟨ht.codec, ht.buddies, ht.hasRef, ht.acc, ht.thisVersion, ht.brk⟩, ht.knows.same_of rfl rfl rfl ht.knows.same, ht.told.counter, ?_, ht.hashes, rfl, rfl, rfl, rfl⟩, rfl⟩
  show ({ t.v.flags with first := t.v.flags.resetFirst || !t.v.flags.signing, hasAuth := true } : VFlags) = _
  rw [hr', hs', ht.flags]
  rfl

theorem round_join (hΓ : Γ.Ok) {s : Legacy} (hk : Knows Γ s.v) (f : Full Γ [] h own doc i pre xs post xi) (ha : Alien Γ h doc i) (hl : s.list = pre ++ xs :: (post ++ [xi]))
    (hc : s.v.synced = true → i.counter = s.v.d.gopCounter + 1) (hg : s.v.gop.hasSei = true) (hb : 64 ≤ s.hashes.length) (hr : s.v.flags.resetFirst = false) (hsig : s.v.flags.signing = true)
    (hf : s.v.flags.first = true) (hbrk : xi.1 < s.brk) (hbrs : xs.1 < s.brk) :
    ∃ t, s.round Γ.env = .ok t () ∧ Joined Γ i s t ∧ t.list = joinList pre xs post ++ [lastItem true xi] := by
  obtain ⟨t, e1, e2, e3, e4⟩ := prepare_ok (s := s.begin) hΓ (hk.same_of rfl rfl rfl rfl) f ha.checks hl hc hg hb
  obtain ⟨m, st, brk, ex, rc, e5, e6, e7, e8⟩ := verifyGop_alien hΓ f ha e2 e3 e4 (by rw [e2.flags]; exact hf) (Nat.lt_of_lt_of_le hbrk e2.brk) (Nat.lt_of_lt_of_le hbrs e2.brk)
  have g2 : Fresh Γ i s.begin { t with list := m ++ alienList st pre xs post xi, brk := brk } :=
    ⟨⟨e2.codec, e2.buddies, e2.hasRef, e2.acc, e2.thisVersion, Nat.le_trans e2.brk e8⟩, e2.knows, e2.told, e2.flags, e2.synced, e2.has, e2.lost, e2.hashes⟩
  obtain ⟨c1, c2⟩ := conclude_join (p := (true, ex, rc)) f g2 e6 e7 rfl hsig hf hr ha.num
  refine ⟨_, ?_, ⟨⟨c1.codec, c1.buddies, c1.hasRef, c1.acc, c1.thisVersion, c1.brk⟩, c1.knows, c1.counter, c1.flags, c1.hashes, c1.auth, c1.expected, c1.received, c1.pending⟩, c2⟩
  unfold Legacy.round
  rw [e1]
  simp only [Res.andThen_ok]
  unfold conduct
  rw [if_pos (by rw [e2.flags]; exact hsig)]
  unfold validate
  rw [e5]
  rfl

theorem rounds_join (hΓ : Γ.Ok) {s : Legacy} {k : Nat} (hk : Knows Γ s.v) (f : Full Γ [] h own doc i pre xs post xi) (ha : Alien Γ h doc i) (hl : s.list = pre ++ xs :: (post ++ [xi]))
    (hc : s.v.synced = true → i.counter = s.v.d.gopCounter + 1) (hb : 64 ≤ s.hashes.length) (hr : s.v.flags.resetFirst = false) (hsig : s.v.flags.signing = true)
    (hf : s.v.flags.first = true) (hbrk : xi.1 < s.brk) (hbrs : xs.1 < s.brk) (h2 : 2 ≤ k) :
    ∃ t, s.rounds Γ.env k = .ok t () ∧ Joined Γ i s t ∧ t.list = joinList pre xs post ++ [lastItem true xi] ∧ t.v.gop.afterNext = false := by
  obtain ⟨k, rfl⟩ : ∃ j, k = j + 2 := ⟨k - 2, by omega⟩
  have hp := hasPending_next hl f.rows f.msg.toIsMsg f.rest f.next hsig
  obtain ⟨t, e1, e2, e3⟩ := round_join (s := { s with v := { s.v with gop := { hasSei := true, noEnd := true } } }) hΓ (hk.same_of rfl rfl rfl hk.same) f ha hl hc rfl hb hr hsig hf hbrk hbrs
  obtain ⟨n, n1, n2, n3, n4, n5, n6, n7⟩ := f.next.nalu
  obtain ⟨c, b1, b2⟩ := f.next.second
  have hw : Waits Γ own (lastItem true xi) :=
    ⟨f.next.status, ⟨n, n1, n2, n3, n4, fun _ => rfl⟩, .inl ⟨rfl, c, b1, b2⟩, f.next.used, f.next.dead⟩
  have hsig' : t.v.flags.signing = true := by rw [e2.flags]; exact hsig
  obtain ⟨g, g1, g2⟩ := hasPending_done (s := t) (l := joinList pre xs post) e3 (fun y hy => by rcases (joinList_mem f y hy).1 with e | e <;> rw [e] <;> decide) hw hsig'
  refine ⟨{ t with v := { t.v with gop := g } }, ?_, ⟨⟨e2.codec, e2.buddies, e2.hasRef, e2.acc, e2.thisVersion, e2.brk⟩, e2.knows.same_of rfl rfl rfl e2.knows.same, e2.counter, e2.flags, e2.hashes, e2.auth, e2.expected, e2.received, e2.pending⟩, e3, g2⟩
  unfold Legacy.rounds
  rw [hp]
  simp only [if_true, e1, Res.andThen_ok, hsig']
  unfold Legacy.rounds
  rw [g1]
  rfl

theorem report_join {s : Legacy} {l : LList} {y : Nat × LItem} (ha : s.v.flags.hasAuth = true) (hl : s.list = l ++ [y]) (hy : y.2.status = .P) (hyd : y.2.dead = false)
    (hend : ∀ z ∈ l, (z.2.status = .U ∨ z.2.status = .ignored) ∧ z.2.need = false ∧ z.2.dead = false) (hv : s.v.rep.thisVersion = []) (hok : s.v.rep.latest.auth = .signaturePresent) (hacc : Overall true s.v.rep.acc.auth) (hkc : s.v.rep.latest.keyChanged = false)
    (he : s.v.rep.latest.expected = -1) (hr : s.v.rep.latest.received = -1) (hp : s.v.rep.latest.pending = 1) :
    ∃ rep r, s.report = .ok { s with v := { s.v with rep := rep }, list := [y] } (some r) ∧ OldUndecided r ∧
      Overall true rep.acc.auth ∧ rep.thisVersion = [] ∧ rep.latest.keyChanged = false := by
  obtain ⟨r0, q0⟩ : ∃ r0 : Report, r0 = { s.v.rep with latest := { s.v.rep.latest with naluStr := some (s.list.map fun y => Legacy.typeChar y.2.nalu), validationStr := some (s.list.map fun y => y.2.status.char) } } := ⟨_, rfl⟩
  have hacc' : (updateAccumulated r0.latest r0.acc).auth = .signaturePresent := by
    rw [upd_auth, show r0.latest.auth = .signaturePresent by rw [q0]; exact hok]
    have : Overall true r0.acc.auth := by rw [q0]; exact hacc
    rcases this with e | e
    · rw [e]; decide
    · rw [if_pos (show r0.acc.auth.val ≤ 1 from e)]
  have hset : ∀ z ∈ l, settled z.2 = true := by
    intro z hz
    obtain ⟨a, b, -⟩ := hend z hz
    unfold settled
    rw [b]
    rcases a with a | a <;> rw [a] <;> rfl
  have hns : (updateAccumulated r0.latest r0.acc).auth ≠ .notSigned := by rw [hacc']; decide
  have hup : Legacy.updateReport s.v.rep s.list = .ok ({ r0 with acc := { updateAccumulated r0.latest r0.acc with validated := (updateAccumulated r0.latest r0.acc).validated + Legacy.cleanUpCount s.list } }, [y]) := by
    have hc : compareVersions (some s.v.rep.thisVersion) (some s.v.rep.versionOnSigningSide) = .ok (-1) := by rw [hv]; rfl
    have he : Legacy.updateReport s.v.rep s.list = (compareVersions (some s.v.rep.thisVersion) (some s.v.rep.versionOnSigningSide)).bind fun c =>
        let r := if c = 2 then { r0 with latest := { r0.latest with auth := .versionMismatch } } else r0
        let r := { r with acc := updateAccumulated r.latest r.acc }
        .ok (if r.acc.auth ≠ .notSigned then { r with acc := { r.acc with validated := r.acc.validated + Legacy.cleanUpCount s.list } } else r, Legacy.cleanUp s.list) := by rw [q0]; rfl
    rw [he, hc]
    dsimp only [Out.bind]
    have h2 : (if (-1 : Int) = 2 then { r0 with latest := { r0.latest with auth := .versionMismatch } } else r0) = r0 := if_neg (by decide)
    rw [h2, if_pos hns, hl, cleanUp_good hset (by unfold settled; rw [hy]; rfl)]
  have hinj : ∀ a b : Status, a.char = b.char → a = b := by intro a b; cases a <;> cases b <;> decide
  have hcount : ∀ st : Status, (s.list.map fun z => z.2.status.char).count st.char = tally st l + if st = .P then 1 else 0 := by
    intro st
    have : (s.list.map fun z => z.2.status.char).count st.char = tally st s.list := by
      unfold tally List.count
      rw [List.countP_map]
      refine List.countP_congr fun z _ => ?_
      simp only [Function.comp, beq_iff_eq, decide_eq_true_eq]
      exact ⟨fun h => hinj _ _ h, fun h => by rw [h]⟩
    rw [this, hl, tally_append, tally_cons, hy]
    simp [tally, eq_comm]
  unfold Legacy.report
  rw [if_pos ha, if_neg (by
    rw [List.any_eq_true]
    rintro ⟨z, hz, e⟩
    rw [hl, List.mem_append, List.mem_singleton] at hz
    rcases hz with hz | rfl
    · rw [(hend z hz).2.2] at e; cases e
    · rw [hyd] at e; cases e), hup]
  refine ⟨_, _, rfl, ⟨?_, hacc', ?_, ?_, ?_, ?_, ⟨s.list.map fun z => z.2.status.char, ?_, ?_, ?_⟩⟩, .inr (by show (updateAccumulated r0.latest r0.acc).auth.val ≤ _; rw [hacc']; decide), ?_, ?_⟩
  · show r0.latest.auth = _; rw [q0]; exact hok
  · show r0.latest.keyChanged = _; rw [q0]; exact hkc
  · show r0.latest.expected = _; rw [q0]; exact he
  · show r0.latest.received = _; rw [q0]; exact hr
  · show r0.latest.pending = _; rw [q0]; exact hp
  · show some (r0.latest.validationStr.getD []) = _; rw [q0]; rfl
  · exact (hcount .P).trans (by rw [tally_zero fun z hz => by rcases (hend z hz).1 with e | e <;> rw [e] <;> decide]; rfl)
  · intro ch hch
    obtain ⟨z, hz, rfl⟩ := List.mem_map.1 hch
    rw [hl, List.mem_append, List.mem_singleton] at hz
    rcases hz with hz | rfl
    · rcases (hend z hz).1 with e | e <;> rw [e]
      · exact .inr (.inl rfl)
      · exact .inr (.inr rfl)
    · rw [hy]; exact .inl rfl
  · show r0.thisVersion = _; rw [q0]; exact hv
  · show r0.latest.keyChanged = _; rw [q0]; exact hkc

/-- The first NAL unit of the first GOP that is received; the SEI is about the one before. -/
theorem due_join (hΓ : Γ.Ok) {s : Legacy} {d : Bytes} {n : Nalu} {p : Piece} (h : Due Γ true 0 none [] i doc s) (hd : d ≠ []) (hp : parseNalu d Γ.codec true true = .ok n) (hn : IsPiece p n)
    (hb : n.hashable = p.bytes) (hne : p.bytes ≠ []) (hf : p.first = true) (ha : Alien Γ (Γ.H p.bytes) doc i) :
    ∃ s' r, s.add Γ.env d = .ok s' (some r) ∧ OldUndecided r ∧
      Ready Γ true 0 (some (Γ.H p.bytes)) [Γ.H p.bytes] i.counter s' := by
  have hfr : s.brk ∉ s.list.map Prod.fst := h.addr.fresh
  obtain ⟨pre, xs, post, hl, hpre, hm, hpost, -⟩ := h.rows
  have hk0 : Knows Γ (entered (opened s) n).v := h.knows.same_of rfl rfl rfl h.knows.same
  obtain ⟨bf, e1, e2, e3⟩ := hashItem_first (s := entered (opened s) n) (l := s.list) (a := s.brk) hΓ rfl hfr hn hb hne hf hk0 h.bud (ref := none) (h.ref.same (w := (entered (opened s) n).v) rfl rfl)
  obtain ⟨it, hit⟩ : ∃ it : LItem, it = { LItem.new n with hash := Γ.H p.bytes, second := some (Γ.H p.bytes) } := ⟨_, rfl⟩
  obtain ⟨u, hu⟩ : ∃ u : Validator, u = { (entered (opened s) n).v with buddies := bf, hasRef := true } := ⟨_, rfl⟩
  have hreg : (entered (opened s) n).register Γ.env s.brk n = .ok (staged s n u it) () := by
    unfold Legacy.register
    rw [if_neg (by rw [hn.valid]; decide), if_neg (by rw [hn.valid]; decide), updateHashable_plain hn.sei]
    dsimp only
    have hset : (entered (opened s) n).list.set s.brk (fun i => { i with nalu := some n }) = (entered (opened s) n).list := by
      show LList.set (s.list ++ [(s.brk, LItem.new n)]) _ _ = _
      rw [set_last hfr]; rfl
    rw [hset, show ({ entered (opened s) n with list := (entered (opened s) n).list } : Legacy) = entered (opened s) n from rfl, e1, hu, hit]
    rfl
  have hst := piece_status hn
  have hnx : IsNext Γ (Γ.H p.bytes) (Γ.H p.bytes) (s.brk, it) := by
    rw [hit]
    refine ⟨hst, ⟨n, rfl, hn.valid, hn.hashable, hn.sei, hn.golden, by rw [hn.first, hf], hn.tlv⟩, ?_, ⟨_, rfl, Validator.buf_of_length (hΓ.len _)⟩, rfl, rfl, rfl, rfl, rfl⟩
    exact Validator.buf_of_length (hΓ.len _)
  have hfull : Full Γ [] (Γ.H p.bytes) (Γ.H p.bytes) doc i pre xs post (s.brk, it) := by
    refine ⟨hpre, hm, hpost, hnx, ?_, ?_⟩
    · have := (h.addr.append it).nodup
      rw [hl] at this
      simpa using this
    · intro x hx
      rw [List.nil_append] at hx
      rw [List.mem_singleton.1 hx]; exact hΓ.len _
  have hlist : (staged s n u it).list = pre ++ xs :: (post ++ [(s.brk, it)]) := by
    show s.list ++ [(s.brk, it)] = _
    rw [hl]; simp
  have hdead : ∀ x ∈ s.list, x.2.dead = false := by
    rw [hl]
    intro x hx
    rw [List.mem_append, List.mem_cons] at hx
    rcases hx with hx | rfl | hx
    · exact hpre.dead hx
    · exact hm.dead
    · exact (hpost x hx).dead
  have hfe : feasible (staged s n u it).list = .ok true := by
    show feasible (s.list ++ [(s.brk, it)]) = _
    unfold feasible
    rw [List.reverse_append]
    simp only [List.reverse_cons, List.reverse_nil, List.nil_append, List.cons_append]
    rw [show it.nalu = some n by rw [hit]; rfl]
    dsimp only
    rw [if_neg (by rw [hn.hashable, hnx.status]; decide), if_pos (by rw [hn.first, hf, hnx.need]; simp)]
  have hflags : u.flags = { s.v.flags with hasAuth := false, firstSei := false } := by rw [hu]; exact entered_flags hn.sei
  have hkw : Knows Γ u := by rw [hu]; exact hk0.same_of rfl rfl rfl hk0.same
  have hxs : xs.1 < s.brk := h.addr.lt _ (by rw [hl]; simp)
  obtain ⟨t, g1, g2, g3, g4⟩ := rounds_join (s := staged s n u it) (k := Γ.env.rounds) hΓ hkw hfull ha hlist (by rw [show (staged s n u it).v = u from rfl, hu]; exact h.counter) h.hashes
    (by rw [show (staged s n u it).v = u from rfl, hflags]; exact h.reset) (by rw [show (staged s n u it).v = u from rfl, hflags]; exact h.signing)
    (by rw [show (staged s n u it).v = u from rfl, hflags]; exact h.first) (Nat.lt_succ_self _) (Nat.lt_succ_of_lt hxs) hΓ.rounds
  obtain ⟨l, hjl⟩ : ∃ l, l = joinList pre xs post := ⟨_, rfl⟩
  have g5 := joinList_mem hfull
  have g6 : s.brk ∉ (joinList pre xs post).map Prod.fst := joinList_addr hfull
  rw [← hjl] at g3 g5 g6
  have hbody : (opened s).addBody Γ.env n = .ok t () := by
    rw [addBody_entered (by rw [hn.valid]; decide), show (opened s).brk = s.brk from rfl, hreg, Res.andThen_ok, maybeValidate_go hfe hkw.has (by
      intro x hx
      rcases List.mem_append.1 hx with hx | hx
      · exact hdead x hx
      · rw [List.mem_singleton.1 hx]; exact hnx.dead), g1]
  obtain ⟨c, hc⟩ : ∃ c : Nalu, c = { n with hashable := if !true && n.isHashable then n.hashable else [], tlvMem := n.tlvMem.take n.tlvSize, tlvStart := [] } := ⟨_, rfl⟩
  have hcopy := copyLast_last (s := t) (l := l) (a := s.brk) (it := { it with need := true, bad := !true }) (n := n) g3 g6 (by rw [hit]; rfl) (copyNalu_small true hn.sei hn.tlv)
  rw [← hc] at hcopy
  obtain ⟨x, hx⟩ : ∃ x : Nat × LItem, x = (s.brk, { it with need := true, bad := !true, nalu := some c }) := ⟨_, rfl⟩
  have hxw : Waits Γ (Γ.H p.bytes) x := by
    rw [hx]
    obtain ⟨bs, b1, b2⟩ := hnx.second
    exact ⟨hnx.status, ⟨c, rfl, by rw [hc]; exact hn.valid, by rw [hc]; exact hn.hashable, by rw [hc]; exact hn.sei, fun _ => rfl⟩, .inl ⟨rfl, bs, b1, b2⟩, hnx.used, hnx.dead⟩
  obtain ⟨rep, r, f1, f2, f3, f4, f5⟩ := report_join (s := { t with list := l ++ [x] }) (l := l) (y := x) (by rw [g2.flags]) rfl hxw.status hxw.dead g5
    (by show t.v.rep.thisVersion = []; rw [g2.thisVersion, show (staged s n u it).v = u from rfl, hu]; exact h.version) g2.auth
    (by show Overall true t.v.rep.acc.auth; rw [g2.acc, show (staged s n u it).v = u from rfl, hu]; exact h.acc) g2.knows.same g2.expected g2.received g2.pending
  refine ⟨{ t with v := { t.v with rep := rep }, list := [x] }, r, ?_, f2, ⟨⟨?_, ?_, ?_, ⟨?_, ?_⟩, ?_, g2.hashes, ⟨?_, ?_⟩, f3, f4⟩, g4, ?_, ?_, fun _ => g2.counter, ?_, ?_⟩⟩
  · subst hx
    exact (add_ok hd (by rw [h.codec]; exact hp) hbody hcopy (by simp)).trans f1
  · exact g2.knows.same_of rfl rfl rfl f5
  · show t.v.codec = _
    rw [g2.codec, show (staged s n u it).v = u from rfl, hu]; exact h.codec
  · show t.v.flags.resetFirst = _
    rw [g2.flags, show (staged s n u it).v = u from rfl, hflags]; exact h.reset
  · show t.v.hasRef = true
    rw [g2.hasRef, show (staged s n u it).v = u from rfl, hu]
  · show t.v.buddies.take Γ.size = _
    rw [g2.buddies, show (staged s n u it).v = u from rfl, hu]; exact e3
  · show 2 * Γ.size ≤ t.v.buddies.length
    rw [g2.buddies, show (staged s n u it).v = u from rfl, hu]; exact e2
  · simp
  · intro a ha
    show a < t.brk
    rw [List.map_singleton, List.mem_singleton, hx] at ha
    rw [ha]
    exact g2.brk
  · exact .inr ⟨_, [], rfl, hxw, rfl⟩
  · intro y hy
    rw [List.mem_singleton.1 hy]; exact hΓ.len _
  · show spoilt [x] = _
    have hxb : x.2.bad = false := by rw [hx]; rfl
    rw [spoilt_cons, hxb, if_neg (fun hc => by cases hc.2)]
    rfl
  · show t.v.flags.first = false
    rw [g2.flags]

theorem alien_of {s : OldSei} {pics : List Bytes} {x : Bytes} (hs : s.e.signature ≠ []) (h32 : Γ.size = 32) (hΓ : Γ.Ok) (h : s.Signs Γ.codec Γ.H (Γ.env.verify Γ.key) (oldHashes Γ.H (pics ++ [x])))
    (ha : s.Apart Γ.codec Γ.H (Γ.env.verify Γ.key) pics x) : Alien Γ (Γ.H x) (s.doc Γ.codec) (infoOf s) := by
  obtain ⟨h0, h1, h2⟩ := ha
  refine ⟨?_, hs, ?_⟩
  · intro hc
    have hn := h.num
    rw [show s.e.numNalus = 1 from hc, oldHashes_length, List.length_append] at hn
    have := List.length_pos_iff.2 h0
    have e1 : (1 : UInt16).toNat = 1 := rfl
    rw [e1, List.length_singleton] at hn
    omega
  · rcases h.verified with ⟨a1, -, a3, a4⟩ | ⟨a1, a2⟩
    · refine .inl ⟨a1, ⟨_, ?_, ?_, h2 a1⟩, a4⟩
      · show s.e.hashList.getD [] = _
        rw [a3]; rfl
      · intro b hb
        cases pics with
        | nil => exact absurd rfl h0
        | cons i r =>
          rw [List.cons_append] at hb
          unfold oldHashes at hb
          rcases List.mem_cons.1 hb with rfl | hb
          · exact hΓ.len _
          · obtain ⟨n, -, rfl⟩ := List.mem_map.1 hb
            exact hΓ.len _
    · exact .inr ⟨a1, h32, h1 a1⟩

/-- The NAL units of the first GOP that is received after its SEI. -/
theorem run_join_gop (hΓ : Γ.Ok) (h32 : Γ.size = 32) {g : OldGop} {pics : List Bytes} {s : Session} {l : Legacy} (hl : s.leg = some l)
    (hd : Due Γ true 0 none [] (infoOf g.sei) (g.sei.doc Γ.codec) l) (hsh : g.Shape Γ.codec) (hne : g.sei.e.signature ≠ [])
    (hsg : g.sei.Signs Γ.codec Γ.H (Γ.env.verify Γ.key) (oldHashes Γ.H (pics ++ (g.pictures Γ.codec).take 1)))
    (hap : ∀ x, (g.pictures Γ.codec).take 1 = [x] → g.sei.Apart Γ.codec Γ.H (Γ.env.verify Γ.key) pics x) :
    ∃ s' l' r os1 os2, Session.run Γ.env s ((g.between ++ g.first :: g.rest).map .nalu) = .ok (s', os1 ++ ⟨none, some r⟩ :: os2) ∧ s'.leg = some l' ∧
      Ready Γ true 0 (refOf Γ (g.pictures Γ.codec)) (oldHashes Γ.H (g.pictures Γ.codec)) g.sei.e.gopCounter l' ∧
      AsClaimed (g.between.map fun _ => none) os1 ∧ OldUndecided r ∧ AsClaimed (g.rest.map fun _ => none) os2 := by
  obtain ⟨hb, ⟨ho, p, hp, hf⟩, hr⟩ := hsh
  have hpics : g.pictures Γ.codec = p.bytes :: g.rest.filterMap fun d => (picture Γ.codec d).map Piece.bytes := by
    unfold OldGop.pictures
    rw [List.filterMap_cons, hp]
    rfl
  obtain ⟨s1, l1, os1, a1, a2, a3, a4⟩ := run_between hl hd hb
  obtain ⟨n, hn, -, -, h2⟩ := ordinary ho
  obtain ⟨k1, k2, k3⟩ := h2 p hp
  rw [hpics] at hsg hap ⊢
  obtain ⟨l2, r, b1, b2, b3⟩ := due_join hΓ a3 ho.some hn k1 k2 k3 hf (alien_of hne h32 hΓ hsg (hap _ rfl))
  obtain ⟨s3, l3, os3, c1, c2, c3, c4⟩ := run_rest hΓ (s := { s1 with leg := some l2 }) (r := []) (i := p.bytes) rfl b3 hr
  refine ⟨s3, l3, r, os1, os3, ?_, c2, c3, a4, b2, c4⟩
  rw [List.map_append, List.map_cons]
  exact run_append a1 (run_cons (add_inner a2 b1) c1)

/-- A stream from the middle on. -/
theorem run_join (hΓ : Γ.Ok) (hsent : Γ.sent = true) (h32 : Γ.size = 32) (hR : Γ.Reads) (hl : Γ.lists = true) (ho : Γ.oid = Γ.env.oid) {lead pics : List Bytes} {n : Option UInt32} {g : OldGop} {gs : List (OldGop × Bool)}
    (hlead : ∀ d ∈ lead, Ordinary Γ.codec d ∧ picture Γ.codec d = none) (h2 : 2 ∈ g.sei.tags) (hsg : OldReceived Γ.env Γ.key Γ.codec Γ.maxSig pics n ((g, true) :: gs))
    (hap : ∀ x, (g.pictures Γ.codec).take 1 = [x] → g.sei.Apart Γ.codec Γ.H (Γ.env.verify Γ.key) pics x) :
    ∃ s os r ps1 ps2 qs, Session.run Γ.env (newSession Γ.env Γ.codec) ((lead ++ ((g, true) :: gs).flatMap fun g => g.1.units Γ.codec).map .nalu) = .ok (s, os ++ (ps1 ++ ⟨none, some r⟩ :: ps2) ++ qs) ∧
      os.length = lead.length ∧ (∀ o ∈ os, o.rc = none ∧ Validator.NoVerdict o.report) ∧
      AsClaimed (none :: g.between.map fun _ => none) ps1 ∧ OldUndecided r ∧ AsClaimed (g.rest.map fun _ => none) ps2 ∧
      AsClaimed (oldClaims Γ.codec (g.pictures Γ.codec).length false true gs) qs ∧ Follows Γ s := by
  have hH : Γ.H = Γ.env.H Γ.env.oid := by funext b; show Γ.env.H Γ.oid b = _; rw [ho]
  obtain ⟨s1, os1, a1, a2, a3, a4⟩ := run_leading hΓ (before_new hΓ hsent) hlead
  obtain ⟨k1, k2, k3, -, k5⟩ := hsg
  rw [← hH] at k3
  replace k3 : Matches g.sei true Γ.codec Γ.H (Γ.env.verify Γ.key) (oldHashes Γ.H (pics ++ (g.pictures Γ.codec).take 1)) := k3
  have hkey : Γ.key ≠ [] := by
    have e2 := k2.key h2
    have e3 := (k2.fits.key _ e2)
    intro hc
    rw [hc] at e3
    simp at e3
  obtain ⟨n, m, e1, e2, e3, e4⟩ := isOld hR hl ho k2 k3.list
  obtain ⟨s2, l2, f1, f2, f3⟩ := before_sei hΓ hkey a2 (by simp [OldSei.bytes]) e1 e2 (e4 h2) e3
  obtain ⟨s3, l3, r, o1, o2, g1, g2, g3, g4, g5, g6⟩ := run_join_gop hΓ h32 (pics := pics) f2 f3 k1 k2.signature k3 hap
  obtain ⟨s4, os4, j1, j2, j3⟩ := run_gops hΓ h32 hR hl ho (q := false) g2 g3 k5 (fun he => absurd he (OldGop.Shape.pictures k1))
  refine ⟨s4, os1, r, ⟨none, none⟩ :: o1, o2, os4, ?_, a3, a4, ⟨rfl, rfl, g4⟩, g5, g6, j2, j3⟩
  rw [List.map_append, List.flatMap_cons, List.map_append, List.append_assoc]
  exact run_append a1 (run_append (run_cons f1 g1) j1)

end Old
end SV
