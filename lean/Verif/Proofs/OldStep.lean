import Verif.Proofs.OldRound
import Verif.Proofs.FlowSync
/-! Validation of an undisturbed stream of the older format: one NAL unit. -/
namespace SV
open Spec
namespace Old
open Legacy
open Validator (Scene Knows IsPiece Skips copyNalu_small updateHashable_plain hashNalu_first hashNalu_other digest_eq)

variable {Γ : Scene}

/-- The state at the beginning of a call. -/
def opened (s : Legacy) : Legacy :=
  { s with v := { s.v with
    flags := { s.v.flags with hasAuth := false }
    rep := { s.v.rep with acc := { s.v.rep.acc with received := s.v.rep.acc.received + 1 } } } }

/-- The state with the item of the NAL unit. -/
def entered (s : Legacy) (n : Nalu) : Legacy :=
  { s with
    list := s.list ++ [(s.brk, LItem.new n)], brk := s.brk + 1
    v := { s.v with flags := { s.v.flags with firstSei := !s.v.flags.signing && n.gopSei, signing := s.v.flags.signing || n.gopSei } } }

/-- The state with the item of the NAL unit after hashing. -/
def staged (s : Legacy) (n : Nalu) (w : Validator) (i : LItem) : Legacy := { entered (opened s) n with v := w, list := s.list ++ [(s.brk, i)] }

theorem entered_flags {s : Legacy} {n : Nalu} (h : n.gopSei = false) : (entered (opened s) n).v.flags = { s.v.flags with hasAuth := false, firstSei := false } := by
  show ({ (opened s).v.flags with firstSei := !s.v.flags.signing && n.gopSei, signing := s.v.flags.signing || n.gopSei } : VFlags) = _
  rw [h, Bool.and_false, Bool.or_false]
  rfl

theorem addBody_entered {env : AuthEnv} {s : Legacy} {n : Nalu} (hv : 0 ≤ n.valid) :
    s.addBody env n = ((entered s n).register env s.brk n).andThen fun s _ => s.maybeValidate env := by
  unfold Legacy.addBody
  dsimp only
  rw [if_neg (by omega)]
  rfl

theorem add_ok {env : AuthEnv} {s t u : Legacy} {d : Bytes} {n : Nalu} (hd : d ≠ []) (hp : parseNalu d s.v.codec true true = .ok n)
    (hb : (opened s).addBody env n = .ok t ()) (hc : t.copyLast = .ok u none) (hl : (u.list.getLast?.map fun x => x.1) = some s.brk) : s.add env d = u.report := by
  unfold Legacy.add Legacy.addH26x
  rw [if_neg hd, if_neg hd, hp]
  unfold opened at hb
  dsimp only
  rw [hb]
  dsimp only
  unfold Legacy.addEnd
  rw [hc]
  simp only [Res.andThen_ok]
  unfold Legacy.bury
  rw [if_pos hl]

theorem copyLast_last {s : Legacy} {l : LList} {a : Nat} {it : LItem} {n c : Nalu} (e : s.list = l ++ [(a, it)]) (ha : a ∉ l.map Prod.fst) (hn : it.nalu = some n)
    (hc : Validator.copyNalu true n = .ok (some c)) : s.copyLast = .ok { s with list := l ++ [(a, { it with nalu := some c })] } none := by
  unfold Legacy.copyLast
  rw [e, show (l ++ [(a, it)]).getLast? = some (a, it) by simp]
  simp only [hn, hc]
  rw [set_last ha]
  rfl

theorem report_idle {s : Legacy} (h : s.v.flags.hasAuth = false) : s.report = .ok s none := by
  unfold Legacy.report
  rw [if_neg (by rw [h]; decide)]

/-- Addresses of the list are different and below the next one. -/
structure Addr (l : LList) (brk : Nat) : Prop where
  nodup : (l.map Prod.fst).Nodup
  lt : ∀ a ∈ l.map Prod.fst, a < brk

theorem Addr.fresh {l : LList} {brk : Nat} (h : Addr l brk) : brk ∉ l.map Prod.fst := fun hc => Nat.lt_irrefl _ (h.lt _ hc)

theorem Addr.append {l : LList} {brk : Nat} (h : Addr l brk) (i : LItem) : Addr (l ++ [(brk, i)]) (brk + 1) := by
  refine ⟨?_, ?_⟩
  · rw [List.map_append, List.nodup_append]
    refine ⟨h.nodup, by simp, ?_⟩
    intro a ha b hb
    rw [List.map_singleton, List.mem_singleton] at hb
    have := h.lt a ha
    rw [hb]
    exact fun hc => by dsimp only at hc; omega
  · intro a ha
    rw [List.map_append, List.mem_append] at ha
    rcases ha with ha | ha
    · have := h.lt a ha; omega
    · simp at ha; omega

theorem maybeValidate_not {env : AuthEnv} {s : Legacy} (hf : feasible s.list = .ok false) (hk : s.v.d.hasPublicKey = true) (h1 : s.v.flags.firstSei = false) :
    s.maybeValidate env = .ok s () := by
  unfold Legacy.maybeValidate Legacy.recurrentDecoded
  rw [hf]
  dsimp only
  rw [if_pos (by rw [hk]; rfl)]
  simp [Res.andThen_ok, h1]

/-! ### A NAL unit that is not protected -/

/-- The state after a NAL unit without a report. -/
def passed (s : Legacy) (v : Validator) (i : LItem) : Legacy :=
  { s with v := { v with flags := { s.v.flags with hasAuth := false, firstSei := false }, rep := (opened s).v.rep }, list := s.list ++ [(s.brk, i)], brk := s.brk + 1 }

theorem add_skip {s : Legacy} {d : Bytes} {n : Nalu} (hd : d ≠ []) (hp : parseNalu d s.v.codec true true = .ok n) (hn : Skips n) (hk : s.v.d.hasPublicKey = true)
    (ha : Addr s.list s.brk) : ∃ i, s.add Γ.env d = .ok (passed s s.v i) none ∧ Rests (s.brk, i) := by
  have hfr : s.brk ∉ s.list.map Prod.fst := ha.fresh
  have hreg : (entered (opened s) n).register Γ.env s.brk n = .ok (entered (opened s) n) () := by
    unfold Legacy.register
    rw [if_neg (by have := hn.valid; omega)]
    by_cases hz : n.valid = 0
    · rw [if_pos hz]
    · rw [if_neg hz, updateHashable_plain hn.sei]
      dsimp only
      have hset : (entered (opened s) n).list.set s.brk (fun i => { i with nalu := some n }) = (entered (opened s) n).list := by
        show LList.set (s.list ++ [(s.brk, LItem.new n)]) _ _ = _
        rw [set_last hfr]; rfl
      rw [hset]
      unfold Legacy.hashItem
      rw [if_pos (by rw [hn.not.resolve_left hz]; rfl)]
  have hst : (LItem.new n).status = .U ∨ (LItem.new n).status = .ignored := by
    show statusOf (some n) = _ ∨ statusOf (some n) = _
    unfold statusOf
    dsimp only
    have := hn.valid
    rw [if_neg (by omega)]
    by_cases hz : n.valid = 0
    · left; rw [if_pos hz]
    · right; rw [if_neg hz, hn.not.resolve_left hz]; rfl
  have hfe : feasible (entered (opened s) n).list = .ok false := by
    unfold feasible
    show (match (s.list ++ [(s.brk, LItem.new n)]).reverse with | [] => _ | x :: r => _) = _
    rw [List.reverse_append]
    simp only [List.reverse_cons, List.reverse_nil, List.nil_append, List.cons_append, LItem.new]
    rw [if_pos]
    rcases hst with h | h <;> (unfold LItem.new at h; dsimp only at h; simp [h])
  have hm : (entered (opened s) n).maybeValidate Γ.env = .ok (entered (opened s) n) () :=
    maybeValidate_not hfe hk (by show (!s.v.flags.signing && n.gopSei) = false; rw [hn.sei, Bool.and_false])
  have hc := copyLast_last (s := entered (opened s) n) (l := s.list) (a := s.brk) (it := LItem.new n) rfl hfr rfl (copyNalu_small true hn.sei hn.tlv)
  have hb : (opened s).addBody Γ.env n = .ok (entered (opened s) n) () := by
    rw [addBody_entered hn.valid, show (opened s).brk = s.brk from rfl, hreg, Res.andThen_ok, hm]
  refine ⟨{ LItem.new n with nalu := some { n with hashable := if !true && n.isHashable then n.hashable else [], tlvMem := n.tlvMem.take n.tlvSize, tlvStart := [] } }, ?_,
    ⟨hst, ⟨_, rfl, hn.sei, hn.not⟩, rfl, rfl, rfl, rfl, rfl, rfl⟩⟩
  · rw [add_ok hd hp hb hc (by simp), report_idle rfl]
    have : (entered (opened s) n).v = { s.v with flags := { s.v.flags with hasAuth := false, firstSei := false }, rep := (opened s).v.rep } := by
      show ({ (opened s).v with flags := _ } : Validator) = _
      rw [hn.sei, Bool.and_false, Bool.or_false]
      rfl
    unfold passed
    rw [← this]
    rfl

/-! ### A NAL unit that is not the first of its GOP -/

theorem afterSei_holds {hs : List Bytes} {l : LList} (h : Holds Γ hs l) : afterSei l.reverse = .ok false := by
  have key : ∀ r : LList, (∀ x ∈ r, x ∈ l) → afterSei r = .ok false := by
    intro r
    induction r with
    | nil => intro _; rfl
    | cons x r ih =>
      intro hr
      obtain ⟨n, hn, hg⟩ := h.nalu (hr x List.mem_cons_self)
      unfold afterSei
      rw [if_neg (by rw [h.dead (hr x List.mem_cons_self)]; decide), hn]
      dsimp only
      rw [hg, ih fun y hy => hr y (List.mem_cons_of_mem _ hy)]
      split <;> rfl
  exact key _ fun x hx => List.mem_reverse.1 hx

theorem piece_status {p : Piece} {n : Nalu} (hn : IsPiece p n) : (LItem.new n).status = .P := by
  show statusOf (some n) = _
  unfold statusOf
  dsimp only
  rw [hn.valid, hn.hashable]; rfl

theorem add_other (hΓ : Γ.Ok) {s : Legacy} {hs : List Bytes} {r : Bytes} {d : Bytes} {n : Nalu} {p : Piece} (hd : d ≠ []) (hp : parseNalu d s.v.codec true true = .ok n) (hn : IsPiece p n)
    (hb : n.hashable = p.bytes) (hne : p.bytes ≠ []) (hf : p.first = false) (hk : Knows Γ s.v) (ha : Addr s.list s.brk) (hl : Holds Γ hs s.list) (haf : s.v.gop.afterNext = false)
    (hbud : 2 * Γ.size ≤ s.v.buddies.length) (hr : s.v.buddies.take Γ.size = r) :
    ∃ b i, s.add Γ.env d = .ok (passed s { s.v with buddies := b } i) none ∧ (Waits Γ (Γ.H (r ++ Γ.H p.bytes)) (s.brk, i) ∧ i.bad = false) ∧ 2 * Γ.size ≤ b.length ∧ b.take Γ.size = r := by
  have hfr : s.brk ∉ s.list.map Prod.fst := ha.fresh
  have hrl : r.length = Γ.size := by rw [← hr, List.length_take]; omega
  obtain ⟨b, hbd⟩ : ∃ b, b = s.v.buddies.take Γ.size ++ ovl (Γ.H p.bytes) (s.v.buddies.drop Γ.size) := ⟨_, rfl⟩
  have hh : (entered (opened s) n).v.hashNalu Γ.env n = .ok ({ (entered (opened s) n).v with buddies := b }, Γ.H (r ++ Γ.H p.bytes)) := by
    have := hashNalu_other (s := (entered (opened s) n).v) hΓ ⟨hk.known, hk.size, hk.typ⟩ hn hb hne (.inl hf) hbud
    rw [this, ← hr, hbd]; rfl
  have hreg : (entered (opened s) n).register Γ.env s.brk n = .ok (staged s n { (entered (opened s) n).v with buddies := b } { LItem.new n with hash := Γ.H (r ++ Γ.H p.bytes) }) () := by
    unfold Legacy.register
    rw [if_neg (by rw [hn.valid]; decide), if_neg (by rw [hn.valid]; decide), updateHashable_plain hn.sei]
    dsimp only
    have hset : (entered (opened s) n).list.set s.brk (fun i => { i with nalu := some n }) = (entered (opened s) n).list := by
      show LList.set (s.list ++ [(s.brk, LItem.new n)]) _ _ = _
      rw [set_last hfr]; rfl
    rw [hset]
    unfold Legacy.hashItem
    rw [if_neg (by rw [hn.hashable]; decide)]
    dsimp only
    rw [hh]
    dsimp only
    rw [if_neg (by rw [hn.first, hf]; show ¬ (false || (s.v.gop.afterNext && !n.gopSei)) = true; rw [haf]; simp)]
    have hset2 : (entered (opened s) n).list.set s.brk (fun i => { i with hash := ovl (Γ.H (r ++ Γ.H p.bytes)) i.hash }) =
        s.list ++ [(s.brk, { LItem.new n with hash := Γ.H (r ++ Γ.H p.bytes) })] := by
      show LList.set (s.list ++ [(s.brk, LItem.new n)]) _ _ = _
      rw [set_last hfr]
      have : ovl (Γ.H (r ++ Γ.H p.bytes)) (LItem.new n).hash = Γ.H (r ++ Γ.H p.bytes) := by
        unfold ovl LItem.new; simp
      rw [this]
    rw [hset2]
    rfl
  have hst := piece_status hn
  have hfe : feasible (s.list ++ [(s.brk, { LItem.new n with hash := Γ.H (r ++ Γ.H p.bytes) })]) = .ok false := by
    unfold feasible
    rw [List.reverse_append]
    simp only [List.reverse_cons, List.reverse_nil, List.nil_append, List.cons_append]
    rw [show (LItem.new n).nalu = some n from rfl]
    dsimp only
    rw [if_neg (by rw [hn.hashable, hst]; decide), if_neg (by rw [hn.sei, hn.first, hf]; simp)]
    exact afterSei_holds hl
  have hm := maybeValidate_not (env := Γ.env) (s := staged s n { (entered (opened s) n).v with buddies := b } { LItem.new n with hash := Γ.H (r ++ Γ.H p.bytes) }) hfe hk.has (by show (!s.v.flags.signing && n.gopSei) = false; rw [hn.sei, Bool.and_false])
  have hbody : (opened s).addBody Γ.env n = .ok (staged s n { (entered (opened s) n).v with buddies := b } { LItem.new n with hash := Γ.H (r ++ Γ.H p.bytes) }) () := by
    rw [addBody_entered (by rw [hn.valid]; decide), show (opened s).brk = s.brk from rfl, hreg, Res.andThen_ok, hm]
  have hc := copyLast_last (s := staged s n { (entered (opened s) n).v with buddies := b } { LItem.new n with hash := Γ.H (r ++ Γ.H p.bytes) }) (l := s.list) (a := s.brk) rfl hfr rfl (copyNalu_small true hn.sei hn.tlv)
  refine ⟨b, { LItem.new n with hash := Γ.H (r ++ Γ.H p.bytes), nalu := some { n with hashable := if !true && n.isHashable then n.hashable else [], tlvMem := n.tlvMem.take n.tlvSize, tlvStart := [] } }, ?_, ?_, ?_, ?_⟩
  · rw [add_ok hd hp hbody hc (by simp), report_idle rfl]
    have : ({ (entered (opened s) n).v with buddies := b } : Validator) = { s.v with buddies := b, flags := { s.v.flags with hasAuth := false, firstSei := false }, rep := (opened s).v.rep } := by
      show ({ (opened s).v with buddies := b, flags := (entered (opened s) n).v.flags } : Validator) = _
      rw [entered_flags hn.sei]
      rfl
    unfold passed
    dsimp only
    rw [← this]
    rfl
  · exact ⟨⟨hst, ⟨_, rfl, hn.valid, hn.hashable, hn.sei, fun h => absurd (show n.firstInGop = true from h) (by rw [hn.first, hf]; decide)⟩,
      .inr ⟨rfl, rfl, Validator.buf_of_length (hΓ.len _)⟩, rfl, rfl⟩, rfl⟩
  · rw [hbd, List.length_append, List.length_take]
    have := Validator.ovl_grows (Γ.H p.bytes) (s.v.buddies.drop Γ.size)
    rw [List.length_drop] at this
    omega
  · rw [hbd, hr, ← hrl, List.take_left]

/-! ### A SEI -/

/-- A NAL unit `n` is a SEI with these contents, and `m` is it with the part that is hashed. -/
structure IsOld (Γ : Scene) (i : Info) (doc : Bytes) (n m : Nalu) : Prop where
  sei : n.gopSei = true
  hashable : n.isHashable = true
  valid : n.valid > 0
  golden : n.golden = false
  first : n.firstInGop = false
  tlv : n.tlvSize ≠ 0
  tlvLe : n.tlvSize ≤ n.tlvMem.length
  tlvSmall : n.tlvSize < 2 ^ 63
  tells : Tells Γ i (n.tlvMem.take n.tlvSize) n.tlvSize
  update : updateHashable n = .ok m
  same : m = { n with hashable := doc }
  doc : doc ≠ []

/-- The state after a SEI. -/
def messaged (s : Legacy) (i : LItem) : Legacy :=
  { s with
    v := { s.v with
      flags := { s.v.flags with hasAuth := false, firstSei := !s.v.flags.signing, signing := true }, rep := (opened s).v.rep, gop := { hasSei := true, afterNext := true } }
    list := s.list ++ [(s.brk, i)], brk := s.brk + 1 }

theorem maybeValidate_go {env : AuthEnv} {s : Legacy} (hf : feasible s.list = .ok true) (hk : s.v.d.hasPublicKey = true) (hd : ∀ x ∈ s.list, x.2.dead = false) :
    s.maybeValidate env = s.rounds env env.rounds := by
  unfold Legacy.maybeValidate Legacy.recurrentDecoded
  rw [hf]
  dsimp only
  rw [if_pos (by rw [hk]; rfl)]
  simp only [Res.andThen_ok]
  rw [if_neg (by decide), if_neg]
  rw [List.any_eq_true]
  rintro ⟨x, hx, e⟩
  rw [hd x hx] at e; cases e

theorem copyNalu_known {n : Nalu} (h1 : n.tlvSize ≤ n.tlvMem.length) (h2 : n.tlvSize < 2 ^ 63) :
    Validator.copyNalu true n = .ok (some { n with hashable := [], tlvMem := n.tlvMem.take n.tlvSize, tlvStart := [] }) := by
  unfold Validator.copyNalu
  rw [if_neg (by omega), if_neg (by omega)]
  simp

theorem add_sei (hΓ : Γ.Ok) {s : Legacy} {hs : List Bytes} {d doc : Bytes} {i : Info} {n m : Nalu} (hd : d ≠ []) (hp : parseNalu d s.v.codec true true = .ok n) (hn : IsOld Γ i doc n m)
    (hk : Knows Γ s.v) (ha : Addr s.list s.brk) (hl : Holds Γ hs s.list) :
    ∃ it, s.add Γ.env d = .ok (messaged s it) none ∧ Msg Γ i doc (s.brk, it) := by
  have hfr : s.brk ∉ s.list.map Prod.fst := ha.fresh
  have hm : m.isHashable = true ∧ m.gopSei = true ∧ m.firstInGop = false ∧ m.hashable = doc ∧ m.valid > 0 ∧ m.golden = false ∧ m.tlvSize ≤ m.tlvMem.length ∧ m.tlvSize < 2 ^ 63 := by
    rw [hn.same]; exact ⟨hn.hashable, hn.sei, hn.first, rfl, hn.valid, hn.golden, hn.tlvLe, hn.tlvSmall⟩
  have hst : (LItem.new n).status = .P := by
    show statusOf (some n) = _
    unfold statusOf
    dsimp only
    have := hn.valid
    rw [if_neg (by omega), if_neg (by omega), hn.hashable]; rfl
  have hh : (entered (opened s) n).v.hashNalu Γ.env m = .ok ((entered (opened s) n).v, Γ.H doc) := by
    unfold Validator.hashNalu
    rw [hm.2.2.2.1, digest_eq (s := (entered (opened s) n).v) hΓ ⟨hk.known, hk.size, hk.typ⟩ hn.doc]
    simp only [Out.bind_ok, hm.2.1, if_true]
  have hreg : (entered (opened s) n).register Γ.env s.brk n = .ok (staged s n (entered (opened s) n).v { LItem.new n with nalu := some m, hash := Γ.H doc }) () := by
    unfold Legacy.register
    have := hn.valid
    rw [if_neg (by omega), if_neg (by omega), hn.update]
    dsimp only
    have hset : (entered (opened s) n).list.set s.brk (fun i => { i with nalu := some m }) = s.list ++ [(s.brk, { LItem.new n with nalu := some m })] := by
      show LList.set (s.list ++ [(s.brk, LItem.new n)]) _ _ = _
      rw [set_last hfr]
    rw [hset]
    unfold Legacy.hashItem
    rw [if_neg (by rw [hm.1]; decide)]
    dsimp only
    rw [hh]
    dsimp only
    rw [if_neg (by rw [hm.2.2.1, hm.2.1]; simp), set_last hfr]
    have : ovl (Γ.H doc) ({ LItem.new n with nalu := some m } : LItem).hash = Γ.H doc := by unfold ovl LItem.new; simp
    dsimp only at this
    rw [this]
    rfl
  have hmsg : IsMsg Γ doc (s.brk, { LItem.new n with nalu := some m, hash := Γ.H doc }) :=
    ⟨hst, ⟨m, rfl, hm.2.2.2.2.1, hm.1, hm.2.1, hm.2.2.2.2.2.1, hm.2.2.1⟩, Validator.buf_of_length (hΓ.len _), rfl, rfl, rfl, rfl, rfl⟩
  have hfe : feasible (s.list ++ [(s.brk, { LItem.new n with nalu := some m, hash := Γ.H doc })]) = .ok true := by
    unfold feasible
    rw [List.reverse_append]
    simp only [List.reverse_cons, List.reverse_nil, List.nil_append, List.cons_append]
    rw [if_neg (by rw [hm.1, hst]; decide), if_pos (by rw [hm.2.1]; rfl)]
  have hsig : (entered (opened s) n).v.flags.signing = true := by
    show (s.v.flags.signing || n.gopSei) = true
    rw [hn.sei, Bool.or_true]
  have hmv := maybeValidate_go (env := Γ.env) (s := staged s n (entered (opened s) n).v { LItem.new n with nalu := some m, hash := Γ.H doc }) hfe hk.has (by
    intro x hx
    rcases List.mem_append.1 hx with hx | hx
    · exact hl.dead hx
    · rw [List.mem_singleton.1 hx]; rfl)
  have hpend := hasPending_msg (s := staged s n (entered (opened s) n).v { LItem.new n with nalu := some m, hash := Γ.H doc }) (post := []) rfl hl hmsg (by intro x hx; cases hx) hsig
  obtain ⟨k, hkr⟩ : ∃ k, Γ.env.rounds = k + 1 := ⟨Γ.env.rounds - 1, by have := hΓ.rounds; omega⟩
  have hbody : (opened s).addBody Γ.env n = .ok (staged s n { (entered (opened s) n).v with gop := { hasSei := true, afterNext := true } } { LItem.new n with nalu := some m, hash := Γ.H doc }) () := by
    have := hn.valid
    rw [addBody_entered (by omega), show (opened s).brk = s.brk from rfl, hreg, Res.andThen_ok, hmv, hkr]
    unfold Legacy.rounds
    rw [hpend]
    rfl
  have hc := copyLast_last (s := staged s n { (entered (opened s) n).v with gop := { hasSei := true, afterNext := true } } { LItem.new n with nalu := some m, hash := Γ.H doc })
    (l := s.list) (a := s.brk) rfl hfr rfl (copyNalu_known hm.2.2.2.2.2.2.1 hm.2.2.2.2.2.2.2)
  refine ⟨{ LItem.new n with hash := Γ.H doc, nalu := some { m with hashable := [], tlvMem := m.tlvMem.take m.tlvSize, tlvStart := [] } }, ?_,
    ⟨⟨hst, ⟨_, rfl, hm.2.2.2.2.1, hm.1, hm.2.1, hm.2.2.2.2.2.1, hm.2.2.1⟩, Validator.buf_of_length (hΓ.len _), rfl, rfl, rfl, rfl, rfl⟩, ?_, rfl⟩⟩
  · rw [add_ok hd hp hbody hc (by simp), report_idle (by rfl)]
    have : (entered (opened s) n).v.flags = { s.v.flags with hasAuth := false, firstSei := !s.v.flags.signing, signing := true } := by
      show ({ (opened s).v.flags with firstSei := !s.v.flags.signing && n.gopSei, signing := s.v.flags.signing || n.gopSei } : VFlags) = _
      rw [hn.sei, Bool.and_true, Bool.or_true]
      rfl
    unfold messaged
    rw [← this]
    rfl
  · intro k hk'
    cases hk'
    have : m.tlvSize = n.tlvSize ∧ m.tlvMem = n.tlvMem := by rw [hn.same]; exact ⟨rfl, rfl⟩
    show m.tlvSize ≠ 0 ∧ Tells Γ i (m.tlvMem.take m.tlvSize) m.tlvSize
    rw [this.1, this.2]
    exact ⟨hn.tlv, hn.tells⟩

/-! ### The first NAL unit of a GOP -/

/-- The hash of the first NAL unit of a GOP, with the one of the GOP before as reference. -/
def transHash (Γ : Scene) (ref : Option Bytes) (b : Bytes) : Bytes :=
  match ref with
  | none => Γ.H b
  | some r => Γ.H (r ++ Γ.H b)

/-- The reference is the hash of the first NAL unit of the GOP. -/
def HasRef (Γ : Scene) (ref : Option Bytes) (v : Validator) : Prop :=
  match ref with
  | none => v.hasRef = false
  | some r => v.hasRef = true ∧ v.buddies.take Γ.size = r

theorem hashItem_first (hΓ : Γ.Ok) {s : Legacy} {ref : Option Bytes} {l : LList} {a : Nat} {n : Nalu} {p : Piece} (hl : s.list = l ++ [(a, LItem.new n)]) (hfr : a ∉ l.map Prod.fst)
    (hn : IsPiece p n) (hb : n.hashable = p.bytes) (hne : p.bytes ≠ []) (hf : p.first = true) (hk : Knows Γ s.v) (hbud : 2 * Γ.size ≤ s.v.buddies.length) (hr : HasRef Γ ref s.v) :
    ∃ b, s.hashItem Γ.env a n = .ok { s with v := { s.v with buddies := b, hasRef := true }, list := l ++ [(a, { LItem.new n with hash := transHash Γ ref p.bytes, second := some (Γ.H p.bytes) })] } () ∧
      2 * Γ.size ≤ b.length ∧ b.take Γ.size = Γ.H p.bytes := by
  obtain ⟨b1, r1, e1, q1⟩ : ∃ b1 r1, s.v.hashNalu Γ.env n = .ok ({ s.v with buddies := b1, hasRef := r1 }, transHash Γ ref p.bytes) ∧ 2 * Γ.size ≤ b1.length := by
    cases ref with
    | none =>
      refine ⟨_, _, hashNalu_first hΓ ⟨hk.known, hk.size, hk.typ⟩ hn hb hne hf hr, ?_⟩
      have := Validator.ovl_grows (Γ.H p.bytes) s.v.buddies; omega
    | some r =>
      have h := hashNalu_other hΓ ⟨hk.known, hk.size, hk.typ⟩ hn hb hne (.inr hr.1) hbud
      rw [hr.2] at h
      refine ⟨r ++ ovl (Γ.H p.bytes) (s.v.buddies.drop Γ.size), true, ?_, ?_⟩
      · rw [h, ← hr.1]; rfl
      · have hrl : r.length = Γ.size := by rw [← hr.2, List.length_take]; omega
        have := Validator.ovl_grows (Γ.H p.bytes) (s.v.buddies.drop Γ.size)
        rw [List.length_drop] at this
        rw [List.length_append]
        omega
  have e2 := hashNalu_first (s := { s.v with buddies := b1, hasRef := false }) hΓ ⟨hk.known, hk.size, hk.typ⟩ hn hb hne hf rfl
  refine ⟨ovl (Γ.H p.bytes) b1, ?_, ?_, Validator.ovl_take (hΓ.len _)⟩
  · unfold Legacy.hashItem
    rw [if_neg (by rw [hn.hashable]; decide), e1]
    dsimp only
    rw [if_pos (by rw [hn.first, hf]; rfl), e2]
    dsimp only
    rw [hl, set_last hfr, set_last hfr]
    have : ovl (transHash Γ ref p.bytes) (LItem.new n).hash = transHash Γ ref p.bytes := by unfold ovl LItem.new; simp
    rw [this]
  · have := Validator.ovl_grows (Γ.H p.bytes) b1; omega

end Old
end SV
