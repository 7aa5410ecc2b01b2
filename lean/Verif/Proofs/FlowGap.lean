import Verif.Proofs.FlowAny
import Verif.Props.AuthCounter
/-! A stream in which SEIs are lost. -/
namespace SV
open Spec
namespace Validator

variable {Γ : Scene} {i : SeiInfo} {s : Validator} {x z : Nat × Item} {xs ys : NList}

/-! ### The SEI is read -/

/-- The state after a SEI has been decoded, now or in an earlier round; `b` tells whether SEIs are found to be lost. -/
structure Read (Γ : Scene) (i : SeiInfo) (s : Validator) (z : Nat × Item) (b : Bool) (w : Validator) : Prop where
  knows : Knows Γ w
  told : Told Γ i w.d
  list : w.list = s.list.set z.1 fun i => { i with decoded := true }
  sigHash : ∃ c, w.sigHash = ovl (Γ.H i.doc) c
  gop : w.gop = { s.gop with lost := b }
  codec : w.codec = s.codec
  brk : w.brk = s.brk
  buddies : w.buddies = s.buddies
  primary : w.primary = s.primary
  linked : w.linked = s.linked
  latestGop : w.latestGop = s.latestGop
  synced : w.synced = s.synced
  flags : w.flags = s.flags
  legacy : w.legacy = s.legacy
  thisVersion : w.rep.thisVersion = s.rep.thisVersion
  auth : w.rep.latest.auth = s.rep.latest.auth
  expected : w.rep.latest.expected = s.rep.latest.expected
  received : w.rep.latest.received = s.rep.latest.received

/-- The SEI is the one after the last one, or a later one. -/
def Later (c : UInt32) (s : Validator) (b : Bool) : Prop := b = decide (c.toNat > (s.latestGop + 1).toNat) ∧ s.synced = true

theorem detectLost_later (env : AuthEnv) (ho : env.ov = .exact) {c : UInt32} {b : Bool} (h : Later c s b) {t : Validator} (hc : t.d.gopCounter = c)
    (hl : t.latestGop = s.latestGop) (hs : t.synced = s.synced) : t.detectLost env = .ok { t with gop := { t.gop with lost := b } } () := by
  rw [C49_detect env t ho, hs, h.2, Bool.and_true, h.1]
  have : SV.Ahead t ↔ c.toNat > (s.latestGop + 1).toNat := by
    unfold SV.Ahead
    rw [hc, hl]
  rw [decide_eq_decide.2 this]

/-- A SEI that has not been decoded. -/
theorem read_new (hΓ : Γ.Ok) (ho : Γ.env.ov = .exact) (h : Due1 Γ i s x xs ys z) (hd : z.2.decoded = false) {b : Bool} (hc : Later i.counter s b)
    (hg : s.gop.noEnd = false) :
    ∃ w, ((s.decodeNext Γ.env z).andThen fun s _ => s.detectLost Γ.env) = .ok w () ∧ Read Γ i s z b w := by
  obtain ⟨n, hn, -, -, -, -, -, hsz, ht⟩ := h.sei.nalu
  have hk : Knows Γ { s with rep := { s.rep with latest := { s.rep.latest with keyChanged := false } } } := h.knows.same_of rfl rfl rfl rfl
  obtain ⟨t, e, kt, tt⟩ := ht _ hk
  have hd1 := tlvDecode_decoded Γ.env { s with rep := { s.rep with latest := { s.rep.latest with keyChanged := false } } } n.tlvMem n.tlvSize
  rw [e] at hd1
  have hd0 : Decoded s { s with rep := { s.rep with latest := { s.rep.latest with keyChanged := false } } } :=
    ⟨rfl, rfl, rfl, rfl, rfl, rfl, rfl, rfl, rfl, rfl, rfl, rfl, rfl, rfl, rfl, rfl, rfl, rfl, rfl, _, _, _, rfl⟩
  have hd' := hd0.trans hd1
  have hle := hΓ.le
  obtain ⟨kc, hts, ts, hlat⟩ := hd'.latest
  have e1 : s.decodeNext Γ.env z = .ok { t with gop := { t.gop with lost := b }, list := t.list.set z.1 fun i => { i with decoded := true }, sigHash := ovl (Γ.H i.doc) t.sigHash } () := by
    unfold decodeNext
    rw [hd, hn]
    dsimp only
    unfold decodeSei
    rw [if_neg (by decide), if_neg hsz, e]
    simp only [Res.andThen_ok]
    rw [detectLost_later Γ.env ho hc tt.counter hd'.latestGop hd'.synced]
    simp only [Res.andThen_ok]
    rw [if_neg (by rw [h.knows.size]; omega), if_neg (by rw [hd'.gop, hg]; simp), h.knows.size, h.sei.hash]
  rw [e1, Res.andThen_ok, detectLost_later Γ.env ho hc (t := { t with gop := { t.gop with lost := b }, list := t.list.set z.1 fun i => { i with decoded := true }, sigHash := ovl (Γ.H i.doc) t.sigHash }) tt.counter hd'.latestGop hd'.synced]
  refine ⟨_, rfl, kt.same_of rfl rfl rfl kt.same, tt, ?_, ⟨_, rfl⟩, ?_, hd'.codec, hd'.brk, hd'.buddies, hd'.primary, hd'.linked, hd'.latestGop, hd'.synced, hd'.flags, hd'.legacy, hd'.thisVersion, ?_, ?_, ?_⟩
  · dsimp only; rw [hd'.list]
  · dsimp only; rw [hd'.gop]
  · dsimp only; rw [hlat]
  · dsimp only; rw [hlat]
  · dsimp only; rw [hlat]

/-- A SEI that has been decoded in an earlier round. -/
theorem read_old (ho : Γ.env.ov = .exact) (h : Due1 Γ i s x xs ys z) (hd : z.2.decoded = true) {b : Bool} (hc : Later i.counter s b)
    (ht : Told Γ i s.d) (hs : ∃ c, s.sigHash = ovl (Γ.H i.doc) c) :
    ∃ w, ((s.decodeNext Γ.env z).andThen fun s _ => s.detectLost Γ.env) = .ok w () ∧ Read Γ i s z b w := by
  have e1 : s.decodeNext Γ.env z = .ok s () := by
    unfold decodeNext
    rw [hd, if_pos rfl]
  rw [e1, Res.andThen_ok, detectLost_later Γ.env ho hc (t := s) ht.counter rfl rfl]
  refine ⟨_, rfl, h.knows.same_of rfl rfl rfl h.knows.same, ht, ?_, hs, rfl, rfl, rfl, rfl, rfl, rfl, rfl, rfl, rfl, rfl, rfl, rfl, rfl, rfl⟩
  dsimp only
  conv => lhs; rw [← List.map_id s.list]
  unfold NList.set
  refine List.map_congr_left fun y hy => ?_
  by_cases e : y.1 = z.1
  · rw [if_pos e, h.is_z hy e, ← hd]; rfl
  · rw [if_neg e]; rfl

/-- The state in which a GOP is validated. -/
structure Facing (Γ : Scene) (s : Validator) (x : Nat × Item) (xs : NList) (z : Nat × Item) (w : Validator) (u : Validator) : Prop where
  eq : ∃ c L, u = { w with primary := some Γ.oid, computed := ovl (Γ.H ((x :: xs).flatMap (hashOf Γ.size))) c, verified := 1, linked := L, list := s.list.map (flaggedItem ((x :: xs).map Prod.fst) x.1 z.1) } ∧
    L.take Γ.size = (s.linked.drop Γ.size).take Γ.size ∧ (L.drop Γ.size).take Γ.size = hashOf Γ.size x ∧ L.length = 128
  nextSei : nextSei u.list = some (flaggedItem ((x :: xs).map Prod.fst) x.1 z.1 z)

theorem read_front (hΓ : Γ.Ok) (h : Due1 Γ i s x xs ys z) {b : Bool} {w : Validator}
    (hw : ((s.decodeNext Γ.env z).andThen fun s _ => s.detectLost Γ.env) = .ok w ()) (hr : Read Γ i s z b w) :
    ∃ u, Facing Γ s x xs z w u ∧ ((s.prepare Γ.env).andThen fun s _ => match updateLinkLoop s s.list with
      | .ub u => .ub u
      | .err e => .err s e
      | .ok s => s.conduct.andThen fun s _ => .ok s.finish ()) = u.conduct.andThen fun s _ => .ok s.finish () := by
  obtain ⟨cs, hcs⟩ := hr.sigHash
  have kt := hr.knows
  have tt := hr.told
  have hprep : s.prepare Γ.env = .ok { w with primary := some Γ.oid, list := onA ((x :: xs).map Prod.fst) (fun i => { i with used := true }) w.list, computed := ovl (Γ.H ((x :: xs).flatMap (hashOf Γ.size))) w.computed, verified := 1 } () := by
    unfold prepare
    rw [nextSei_pending (z := z) (xs := x :: xs ++ ys) (by rw [h.pend, ← List.append_assoc]) (fun q hq => (h.plain q hq).1) h.sei.isSei]
    have hassoc : ((s.decodeNext Γ.env z).andThen fun s _ => (s.detectLost Γ.env).andThen fun s _ => s.prepareGopHash Γ.env z.1) =
        (((s.decodeNext Γ.env z).andThen fun s _ => s.detectLost Γ.env).andThen fun s _ => s.prepareGopHash Γ.env z.1) := by
      cases s.decodeNext Γ.env z <;> rfl
    dsimp only
    rw [hassoc, hw]
    simp only [Res.andThen_ok]
    rw [prepareGopHash_due hΓ h (t := w) hr.list hr.primary kt.typ kt.size]
    simp only [Res.andThen_ok]
    rw [if_neg (by rw [kt.has]; simp), if_pos (by rw [hr.gop]; exact h.hasSei)]
    unfold verifyHash
    dsimp only
    rw [if_neg (by
      rintro (hc | hc)
      · exact tt.max hc
      · rw [tt.signature] at hc; exact h.sei.signature hc), kt.key]
    dsimp only
    rw [kt.size, hcs, buf_ovl (hΓ.len _), tt.signature, h.sei.verify]
  have hle := hΓ.le
  have hzn := h.z_not
  have hxi := h.x_in
  obtain ⟨n, hn, hsec⟩ := (h.plain x (by simp)).2
  have hfn : n.firstInGop = true := by
    have := h.first
    unfold Item.isFirst at this
    rw [hn] at this; exact this
  obtain ⟨b, hbs⟩ := Option.isSome_iff_exists.1 (hsec hfn)
  have hxl := h.mem_seg (y := x) (by simp)
  have hxz : x.1 ≠ z.1 := fun e => hzn (e ▸ hxi)
  obtain ⟨v, hv⟩ : ∃ v, v = { w with primary := some Γ.oid, list := onA ((x :: xs).map Prod.fst) (fun i => { i with used := true }) w.list, computed := ovl (Γ.H ((x :: xs).flatMap (hashOf Γ.size))) w.computed, verified := 1 } := ⟨_, rfl⟩
  rw [← hv] at hprep
  have hul : v.list = onA ((x :: xs).map Prod.fst) (fun i => { i with used := true }) (s.list.set z.1 fun i => { i with decoded := true }) := by
    rw [hv, ← hr.list]
  have hlink := updateLinkLoop_ok (s := v) (l := v.list) (q := (x.1, { x.2 with used := true })) (n := n) (b := b) (by
      rw [hul]
      refine List.mem_map.2 ⟨x, List.mem_map.2 ⟨x, hxl.1, if_neg hxz⟩, if_pos hxi⟩) hn rfl hfn h.linked hbs (by
      intro y hy hyu hne
      rw [hul] at hy
      obtain ⟨w, hw, rfl⟩ := List.mem_map.1 hy
      obtain ⟨v, hv, rfl⟩ := List.mem_map.1 hw
      by_cases e1 : v.1 = z.1
      · rw [if_pos e1] at hyu
        dsimp only at hyu
        rw [if_neg (e1 ▸ hzn)] at hyu
        dsimp only at hyu
        rw [h.unused v hv] at hyu; cases hyu
      · rw [if_neg e1] at hyu hne ⊢
        by_cases e2 : v.1 ∈ (x :: xs).map Prod.fst
        · rw [if_pos e2] at hne ⊢
          have hv' := h.in_seg hv e2
          rcases List.mem_cons.1 hv' with rfl | hv''
          · exact absurd rfl hne
          · obtain ⟨m, hm, -⟩ := (h.plain v (List.mem_append_left _ hv')).2
            refine ⟨m, hm, ?_⟩
            have := h.rest v hv''
            unfold Item.isFirst at this
            rw [hm] at this; exact this
        · rw [if_neg e2, h.unused v hv] at hyu; cases hyu)
  have hds : v.d.hashSize = Γ.size := by rw [hv]; exact kt.size
  have hdl : v.linked = s.linked := by rw [hv]; exact hr.linked
  rw [hds, hdl] at hlink
  generalize hL : updateLinked Γ.size s.linked (buf Γ.size b) = L at hlink
  have hbl : (buf Γ.size b).length = Γ.size := by unfold buf; simp
  have hLt : L.take Γ.size = (s.linked.drop Γ.size).take Γ.size := by
    rw [← hL]
    unfold updateLinked
    have h1 : ((s.linked.drop Γ.size).take Γ.size).length = Γ.size := by
      rw [List.length_take, List.length_drop, h.linkLen]; omega
    rw [List.take_append_of_le_length (by simp only [List.length_take, List.length_append, h1, hbl]; omega), List.take_take, Nat.min_eq_left (by omega),
      List.take_append_of_le_length (by omega), List.take_of_length_le (by omega)]
  have hLd : (L.drop Γ.size).take Γ.size = hashOf Γ.size x := by
    rw [← hL]
    unfold updateLinked
    have h1 : ((s.linked.drop Γ.size).take Γ.size).length = Γ.size := by
      rw [List.length_take, List.length_drop, h.linkLen]; omega
    rw [List.take_of_length_le (i := 2 * Γ.size) (by rw [List.length_append, h1, hbl]; omega)]
    have h2 : List.drop Γ.size (((s.linked.drop Γ.size).take Γ.size ++ buf Γ.size b) ++ s.linked.drop (2 * Γ.size)) = buf Γ.size b ++ s.linked.drop (2 * Γ.size) := by
      conv => lhs; arg 1; rw [← h1]
      rw [List.append_assoc, List.drop_left]
    rw [h2]
    conv => lhs; arg 1; rw [← hbl]
    rw [List.take_left]
    unfold hashOf
    rw [h.first, if_pos rfl, hbs]
    rfl
  have hLl : L.length = 128 := by
    rw [← hL]
    unfold updateLinked
    have h1 : ((s.linked.drop Γ.size).take Γ.size).length = Γ.size := by
      rw [List.length_take, List.length_drop, h.linkLen]; omega
    simp only [List.length_append, List.length_take, List.length_drop, h1, hbl, h.linkLen]
    omega
  have hflag : NList.set v.list x.1 (fun i => { i with linked := true }) = s.list.map (flaggedItem ((x :: xs).map Prod.fst) x.1 z.1) := by
    rw [hul]; exact flagged_eq s.list hzn hxi
  dsimp only at hlink
  rw [hflag] at hlink
  refine ⟨{ v with linked := L, list := s.list.map (flaggedItem ((x :: xs).map Prod.fst) x.1 z.1) }, ⟨⟨_, L, by rw [hv], hLt, hLd, hLl⟩, ?_⟩, ?_⟩
  · dsimp only
    have hfp : pending (s.list.map (flaggedItem ((x :: xs).map Prod.fst) x.1 z.1)) = ((x :: xs ++ ys) ++ [z]).map (flaggedItem ((x :: xs).map Prod.fst) x.1 z.1) := by
      have hst : ∀ y : Nat × Item, (flaggedItem ((x :: xs).map Prod.fst) x.1 z.1 y).2.status = y.2.status := fun y => (flaggedItem_nalu _ _ _ y).2.1
      have hp : (x :: xs ++ ys) ++ [z] = pending s.list := by rw [h.pend, ← List.append_assoc]
      rw [hp]
      unfold pending
      rw [List.filter_map]
      congr 1
      refine List.filter_congr fun y _ => ?_
      simp only [Function.comp, hst]
    rw [List.map_append, List.map_singleton] at hfp
    refine nextSei_pending hfp ?_ ?_
    · intro y hy
      obtain ⟨w, hw, rfl⟩ := List.mem_map.1 hy
      have := (h.plain w hw).1
      unfold Item.isSei at this ⊢
      rw [(flaggedItem_nalu _ _ _ w).1]; exact this
    · have := h.sei.isSei
      unfold Item.isSei at this ⊢
      rw [(flaggedItem_nalu _ _ _ z).1]; exact this
  · rw [hprep]
    simp only [Res.andThen_ok]
    rw [hlink]

/-! ### A GOP without SEI -/

/-- A pending item becomes invalid. -/
def struck (x : Nat × Item) : Nat × Item := if x.2.status = .P then (x.1, { x.2 with status := .N }) else x

theorem struck_pending (l : NList) : pending (l.map struck) = [] := by
  rw [pending_nil]
  intro y hy
  obtain ⟨w, -, rfl⟩ := List.mem_map.1 hy
  unfold struck
  split
  · simp
  · next h => exact h

theorem markLoop_skip {Q R : NList} (h : pending Q = []) {l : NList} {k : Nat} {f : Bool} (e : markLoop R = .ok (l, k, f)) : markLoop (Q ++ R) = .ok (Q ++ l, k, f) := by
  induction Q with
  | nil => exact e
  | cons x Q ih =>
    have hx : x.2.status ≠ .P := pending_nil.1 h x List.mem_cons_self
    have := ih (pending_nil.2 fun y hy => pending_nil.1 h y (List.mem_cons_of_mem _ hy))
    rw [List.cons_append]
    unfold markLoop
    rw [if_pos hx, this]
    rfl

/-- The pending NAL units up to the next GOP become invalid. -/
theorem markLoop_gop {y : Nat × Item} {R : NList} (hy : ∃ m, y.2.nalu = some m ∧ m.firstInGop = true) (hyl : y.2.linked = false) :
    ∀ (P : NList) (x : Nat × Item), (∀ q ∈ x :: P, q.2.status = .P → q.2.isSei = false ∧ q.2.nalu.isSome = true) →
      (∀ q ∈ P, ∃ m, q.2.nalu = some m ∧ (m.firstInGop = true → q.2.linked = true)) → (∃ a, (x :: P).getLast? = some a ∧ a.2.status = .P) →
      ∃ k, markLoop (x :: P ++ y :: R) = .ok ((x :: P).map struck ++ y :: R, k + 1, true) := by
  obtain ⟨my, hmy, hmf⟩ := hy
  intro P
  induction P with
  | nil =>
    intro x h1 _ h3
    obtain ⟨a, ha, hap⟩ := h3
    replace ha : x = a := by simpa using ha
    subst ha
    obtain ⟨hs, hn⟩ := h1 x List.mem_cons_self hap
    obtain ⟨n, hn⟩ := Option.isSome_iff_exists.1 hn
    refine ⟨0, ?_⟩
    rw [List.cons_append]
    unfold markLoop
    have hs' : n.gopSei = false := by unfold Item.isSei at hs; rw [hn] at hs; exact hs
    rw [if_neg (by rw [hap]; simp), hn]
    dsimp only
    rw [hs', if_neg (by decide)]
    simp only [List.nil_append]
    rw [hmy]
    dsimp only
    rw [hmf, hyl]
    unfold struck
    simp [hap, hn]
  | cons q P ih =>
    intro x h1 h2 h3
    obtain ⟨k, e⟩ := ih q (fun w hw => h1 w (List.mem_cons_of_mem _ hw)) (fun w hw => h2 w (List.mem_cons_of_mem _ hw)) (by
      obtain ⟨a, ha, hap⟩ := h3
      exact ⟨a, by rw [List.getLast?_cons_cons] at ha; exact ha, hap⟩)
    rw [List.cons_append, List.map_cons, List.cons_append]
    by_cases hx : x.2.status = .P
    · obtain ⟨hs, hn⟩ := h1 x List.mem_cons_self hx
      obtain ⟨n, hn⟩ := Option.isSome_iff_exists.1 hn
      have hs' : n.gopSei = false := by unfold Item.isSei at hs; rw [hn] at hs; exact hs
      obtain ⟨m, hm, hml⟩ := h2 q List.mem_cons_self
      refine ⟨k + 1, ?_⟩
      have hc : (m.firstInGop && !q.2.linked) = false := by
        cases hf : m.firstInGop with
        | false => rfl
        | true => rw [hml hf]; rfl
      unfold markLoop
      rw [if_neg (by rw [hx]; simp), hn]
      dsimp only
      rw [hs', if_neg (by decide)]
      simp only [List.cons_append] at e ⊢
      rw [hm]
      dsimp only
      rw [hc, if_neg (by decide), e]
      unfold struck
      simp [hx, hn]
    · refine ⟨k, ?_⟩
      rw [List.cons_append] at e ⊢
      unfold markLoop
      rw [if_pos hx, e]
      have : struck x = x := by unfold struck; rw [if_neg hx]
      rw [this]
      rfl

/-! ### The rounds of a call -/

/-- Every first NAL unit of a GOP that is pending follows directly on a pending item, unless nothing is pending before it. -/
def Tied (l : NList) : Prop :=
  ∀ A a y B, l = A ++ a :: y :: B → y.2.status = .P → y.2.isFirst = true → a.2.status = .P ∨ pending (A ++ [a]) = []

theorem Tied.suffix {P T : NList} (h : Tied (P ++ T)) : Tied T := by
  intro A a y B e h1 h2
  rcases h (P ++ A) a y B (by rw [e, List.append_assoc]) h1 h2 with h3 | h3
  · exact .inl h3
  · rw [List.append_assoc, pending_append] at h3
    exact .inr (List.append_eq_nil_iff.1 h3).2

/-- A SEI `z` has come with the GOPs `q` pending; `k` NAL units have been found to have no SEI. -/
structure Gap (Γ : Scene) (i : SeiInfo) (q : List Piece) (cnt : UInt32) (lnk : Bytes) (k : Nat) (Q T : NList) (z : Nat × Item) (m : Nalu) (u : Validator) : Prop where
  codec : u.codec = Γ.codec
  legacy : u.legacy = false
  signing : u.flags.signing = true
  notFirst : u.flags.first = false
  synced : u.synced = true
  knows : Knows Γ u
  wf : WF u.list u.brk
  list : u.list = Q ++ (T ++ [z])
  done : pending Q = []
  rows : ∃ r, Rows Γ r q (pending T) ∧ refAfter Γ.H r q = u.buddies.take Γ.size
  unused : ∀ x ∈ u.list, x.2.used = false
  fails : Q.countP (hasStatus .N) = k
  noHoles : ∀ x ∈ Q, x.2.status ≠ .M ∧ x.2.status ≠ .E
  good : ∀ x ∈ T, x.2.status ≠ .N ∧ x.2.status ≠ .M ∧ x.2.status ≠ .E
  budLen : 2 * Γ.size ≤ u.buddies.length
  count : u.latestGop = cnt
  linkLen : u.linked.length = 128
  link : (u.linked.drop Γ.size).take Γ.size = lnk
  primary : u.primary = none ∨ u.primary = some Γ.oid
  version : u.rep.thisVersion = []
  status : z.2.status = .P
  nalu : z.2.nalu = some m
  hash : buf Γ.size z.2.hash = Γ.H i.doc
  seen : ∀ x ∈ T, Passed x
  tied : Tied T

/-- The SEI has been decoded, and `j` GOPs were found to have none. -/
structure Begun (Γ : Scene) (i : SeiInfo) (j : Nat) (z : Nat × Item) (u : Validator) : Prop where
  pos : 0 < j
  decoded : z.2.decoded = true
  hasAuth : u.flags.hasAuth = true
  told : Told Γ i u.d
  sigHash : ∃ c, u.sigHash = ovl (Γ.H i.doc) c
  auth : u.rep.latest.auth = .notOk
  expected : u.rep.latest.expected = -1
  received : u.rep.latest.received = -(j : Int)

/-- The SEI has not been decoded. -/
def Fresh (z : Nat × Item) (u : Validator) : Prop := z.2.decoded = false ∧ u.flags.hasAuth = false

theorem begin_latest (s : Validator) : ∃ L, s.begin = { s with rep := { s.rep with latest := L } } ∧ L.keyChanged = s.rep.latest.keyChanged ∧
    (s.flags.hasAuth = true → L = s.rep.latest) ∧ (s.flags.hasAuth = false → L.auth = .signaturePresent ∧ L.expected = 0 ∧ L.received = 0) := by
  unfold Validator.begin
  cases h : s.flags.hasAuth with
  | true => exact ⟨s.rep.latest, rfl, rfl, fun _ => rfl, fun hc => by cases hc⟩
  | false => exact ⟨_, rfl, rfl, fun hc => (by cases hc), fun _ => ⟨rfl, rfl, rfl⟩⟩

variable {p : Piece} {ps rest : List Piece} {cnt : UInt32} {lnk : Bytes} {k j : Nat} {Q T : NList} {n m : Nalu} {u : Validator}

theorem IsSei.done (hn : IsSei Γ i n m) :
    m.gopSei = true ∧ m.isHashable = true ∧ m.valid > 0 ∧ m.golden = false ∧ m.firstInGop = false ∧ m.tlvSize ≠ 0 ∧ Tells Γ i m.tlvMem m.tlvSize := by
  rw [hn.same]; exact ⟨hn.sei, hn.hashable, hn.valid, hn.golden, hn.first, hn.tlv, hn.tells⟩

/-- What a round finds. -/
structure Faced (Γ : Scene) (i : SeiInfo) (p : Piece) (ps rest : List Piece) (u : Validator) (T : NList) (z : Nat × Item) (b : Bool)
    (r : Bytes) (x : Nat × Item) (xs ys : NList) (v w U : Validator) : Prop where
  seg : Rows Γ r (p :: ps) (x :: xs)
  after : Rows Γ (refAfter Γ.H r (p :: ps)) rest ys
  ref : refAfter Γ.H r (p :: ps ++ rest) = u.buddies.take Γ.size
  pend : pending T = x :: xs ++ ys
  found : u.hasPending.2 = true
  same : ∃ g L, g.transLost = false ∧ u.hasPending.1.begin = { u with gop := g, rep := { u.rep with latest := L } } ∧ v = { u with gop := g, rep := { u.rep with latest := L } }
  transLost : v.gop.transLost = false
  latest : (u.flags.hasAuth = true → v.rep.latest = u.rep.latest) ∧
    (u.flags.hasAuth = false → v.rep.latest.auth = .signaturePresent ∧ v.rep.latest.expected = 0 ∧ v.rep.latest.received = 0)
  due : Due1 Γ i v x xs ys z
  read : Read Γ i v z b w
  facing : Facing Γ v x xs z w U
  round : u.hasPending.1.round Γ.env = U.conduct.andThen fun s _ => .ok s.finish ()
  hashes : ∀ r0, (x :: xs).flatMap (hashOf Γ.size) = (pieceHashes Γ.H r0 (p :: ps)).flatten

theorem gap_face (hΓ : Γ.Ok) (ho : Γ.env.ov = .exact) (hn : IsSei Γ i n m) (h : Gap Γ i (p :: ps ++ rest) cnt lnk k Q T z m u)
    (first : p.first = true) (others : ∀ q ∈ ps, q.first = false) (next : ∀ q t, rest = q :: t → q.first = true)
    (hst : Fresh z u ∨ Begun Γ i j z u) {b : Bool} (hb : b = decide (i.counter.toNat > (cnt + 1).toNat)) :
    ∃ r x xs ys v w U, Faced Γ i p ps rest u T z b r x xs ys v w U := by
  obtain ⟨r, hr, href⟩ := h.rows
  obtain ⟨seg, ys, e1, h1, h2⟩ := hr.split
  cases seg with
  | nil => exact h1.elim
  | cons x xs =>
  have mz := hn.done
  have hpend : pending u.list = x :: xs ++ (ys ++ [z]) := by
    rw [h.list, pending_append, h.done, pending_append, e1, pending_cons, if_pos h.status, List.append_assoc]; rfl
  have hplain : ∀ y ∈ x :: xs ++ ys, y.2.isSei = false ∧ ∃ n, y.2.nalu = some n ∧ n.isHashable = true ∧ n.valid > 0 ∧ (n.firstInGop = true → y.2.second.isSome = true) := by
    intro y hy
    exact Rows.plain hr (by rw [e1]; exact hy)
  have hlp : ∀ x ∈ Q ++ T, x.2.status = .P → x.2.isSei = false := by
    intro y hy hyp
    rcases List.mem_append.1 hy with hy | hy
    · exact absurd hyp (pending_nil.1 h.done y hy)
    · exact (hplain y (by rw [← e1]; exact mem_pending.2 ⟨hy, hyp⟩)).1
  have hxf : x.2.isFirst = true := by rw [h1.1.isFirst, first]
  obtain ⟨nx, hnx, hnxh, -, -⟩ := (hplain x (by simp)).2
  have hnxf : nx.firstInGop = true := by unfold Item.isFirst at hxf; rw [hnx] at hxf; exact hxf
  have hxl : x ∈ T ∧ x.2.status = .P := mem_pending.1 (by rw [e1]; simp)
  obtain ⟨hp1, g, hp2, hg, hg2, hg3⟩ := hasPending_due' (l := Q ++ T) h.signing (by rw [h.list, List.append_assoc]) hlp (List.mem_append_right _ hxl.1) hnx hxl.2 hnxh hnxf h.nalu h.status mz.2.1 mz.2.2.1 mz.1
  obtain ⟨L, hL, hL1, hL2, hL3⟩ := begin_latest { u with gop := g }
  obtain ⟨v, hv⟩ : ∃ v, v = ({ u with gop := g, rep := { u.rep with latest := L } } : Validator) := ⟨_, rfl⟩
  have hbeg : ({ u with gop := g } : Validator).begin = v := by rw [hL, hv]
  have hdue : Due1 Γ i v x xs ys z := by
    subst hv
    refine ⟨h.knows.same_of rfl rfl rfl (hL1.trans h.knows.same), h.wf, hpend, hxf, Rows.firsts h1.2 others, Rows.starts h2 next, ?_, h1.1.linked,
      ⟨⟨m, h.nalu, mz⟩, h.hash, hn.signature, hn.verify⟩, h.unused, h.signing, hg, h.linkLen, h.primary⟩
    intro y hy
    obtain ⟨a, b, c, -, -, d⟩ := hplain y hy
    exact ⟨a, b, c, d⟩
  have hlat : Later i.counter v b := by
    subst hv
    exact ⟨by rw [hb, ← h.count], h.synced⟩
  have hread : ∃ w, ((v.decodeNext Γ.env z).andThen fun s _ => s.detectLost Γ.env) = .ok w () ∧ Read Γ i v z b w := by
    rcases hst with h' | h'
    · exact read_new hΓ ho hdue h'.1 hlat (by subst hv; exact hg2)
    · exact read_old ho hdue h'.decoded hlat (by subst hv; exact h'.told) (by subst hv; exact h'.sigHash)
  obtain ⟨w, hw, hrd⟩ := hread
  obtain ⟨U, hU, hround⟩ := read_front hΓ hdue hw hrd
  refine ⟨r, x, xs, ys, v, w, U, h1, h2, href, e1, hp1, ⟨g, L, hg3, by rw [hp2, hbeg, hv], hv⟩, by subst hv; exact hg3, ⟨?_, ?_⟩, hdue, hrd, hU, ?_, ?_⟩
  · intro ha; subst hv; exact hL2 ha
  · intro ha; subst hv; exact hL3 ha
  · rw [hp2]
    unfold Validator.round
    rw [hbeg]
    exact hround
  · intro r0
    rw [h1.hashes, pieceHashes_start Γ.H r r0 first]

theorem struck_addr (y : Nat × Item) : (struck y).1 = y.1 := by
  unfold struck; split <;> rfl

theorem flaggedItem_other {A : List Nat} {b a : Nat} {x : Nat × Item} (h1 : x.1 ∉ A) (h2 : x.1 ≠ a) : flaggedItem A b a x = x := by
  unfold flaggedItem
  rw [if_neg h1, if_neg h2]

/-- A GOP is found to have no SEI. -/
theorem gap_lost (hΓ : Γ.Ok) (ho : Γ.env.ov = .exact) (hn : IsSei Γ i n m) (h : Gap Γ i (p :: ps ++ rest) cnt lnk k Q T z m u)
    (first : p.first = true) (others : ∀ q ∈ ps, q.first = false) (next : ∀ q t, rest = q :: t → q.first = true) (more : rest ≠ [])
    (hst : Fresh z u ∧ j = 0 ∨ Begun Γ i j z u) (hb : i.counter.toNat > (cnt + 1).toNat) (f : Nat) :
    ∃ u' Q' T' z', u.rounds Γ.env (f + 1) = u'.rounds Γ.env f ∧ Gap Γ i rest (cnt + 1) (Γ.H p.bytes) (k + (ps.length + 1)) Q' T' z' m u' ∧ Begun Γ i (j + 1) z' u' := by
  obtain ⟨r, x, xs, ys, v, w, U, c⟩ := gap_face hΓ ho hn h first others next (hst.imp And.left id) (b := true) (by rw [decide_eq_true hb])
  -- the next GOP
  obtain ⟨y, ys', rfl⟩ : ∃ y ys', ys = y :: ys' := by
    cases ys with
    | nil =>
      cases rest with
      | nil => exact absurd rfl more
      | cons q t => exact c.after.elim
    | cons y ys' => exact ⟨y, ys', rfl⟩
  have hyf : y.2.isFirst = true := c.due.next y ys' rfl
  obtain ⟨pre, T1, hT, hpre, hT1⟩ := List.filter_eq_append_iff.1 (show T.filter _ = (x :: xs) ++ (y :: ys') from c.pend)
  obtain ⟨N1, R, hT1', hN1, hyP, hR⟩ := List.filter_eq_cons_iff.1 hT1
  obtain ⟨P, hP⟩ : ∃ P, P = pre ++ N1 := ⟨_, rfl⟩
  have hTP : T = P ++ y :: R := by rw [hT, hT1', hP, List.append_assoc]
  have hpP : pending P = x :: xs := by
    have e : pending N1 = [] := by
      refine pending_nil.2 fun q hq hc => ?_
      exact hN1 q hq (decide_eq_true hc)
    rw [hP, pending_append, e, List.append_nil]; exact hpre
  have hyP : y.2.status = .P := of_decide_eq_true hyP
  have hRp : pending R = ys' := hR
  obtain ⟨A, a, hPa, haP⟩ : ∃ A a, P = A ++ [a] ∧ a.2.status = .P := by
    rcases List.eq_nil_or_concat P with e | ⟨A, a, e⟩
    · rw [e] at hpP; cases hpP
    · rw [List.concat_eq_append] at e
      refine ⟨A, a, e, ?_⟩
      rcases h.tied A a y R (by rw [hTP, e, List.append_assoc]; rfl) hyP hyf with h' | h'
      · exact h'
      · rw [← e, hpP] at h'; cases h'
  -- addresses
  have hnd : (u.list.map Prod.fst).Nodup := h.wf.nodup
  have hul : u.list = Q ++ (P ++ (y :: R ++ [z])) := by rw [h.list, hTP]; simp
  have hvl : v.list = u.list := by obtain ⟨g, L, -, -, e⟩ := c.same; rw [e]
  obtain ⟨A0, hA0⟩ : ∃ A0, A0 = (x :: xs).map Prod.fst := ⟨_, rfl⟩
  have hinA : ∀ q ∈ u.list, q.1 ∈ A0 → q ∈ x :: xs := fun q hq hqa => c.due.in_seg (by rw [hvl]; exact hq) (hA0 ▸ hqa)
  have hdist : ∀ q ∈ Q ++ P, ∀ t ∈ y :: R ++ [z], q.1 ≠ t.1 := by
    rw [hul, ← List.append_assoc, List.map_append, List.nodup_append] at hnd
    exact fun q hq t ht => hnd.2.2 _ (List.mem_map_of_mem hq) _ (List.mem_map_of_mem ht)
  have hdist' : ∀ q ∈ Q, ∀ t ∈ P, q.1 ≠ t.1 := by
    rw [hul, List.map_append, List.nodup_append] at hnd
    exact fun q hq t ht => hnd.2.2 _ (List.mem_map_of_mem hq) _ (List.mem_map_of_mem (List.mem_append_left _ ht))
  have hRz : ∀ q ∈ y :: R, q.1 ≠ z.1 := by
    rw [hul, ← List.append_assoc, ← List.append_assoc, List.map_append, List.nodup_append] at hnd
    exact fun q hq => hnd.2.2 _ (List.mem_map_of_mem (List.mem_append_right _ hq)) _ (List.mem_map_of_mem (f := Prod.fst) (List.mem_singleton_self z))
  have hsegP : ∀ q ∈ x :: xs, q ∈ P := fun q hq => (mem_pending.1 (by rw [hpP]; exact hq)).1
  have hsegA : ∀ t : Nat × Item, t.1 ∈ A0 → ∃ q ∈ P, q.1 = t.1 := by
    intro t ht
    rw [hA0] at ht
    obtain ⟨q, hq, e⟩ := List.mem_map.1 ht
    exact ⟨q, hsegP q hq, e⟩
  have hfQ : Q.map (flaggedItem A0 x.1 z.1) = Q := by
    conv => rhs; rw [← List.map_id Q]
    refine List.map_congr_left fun q hq => flaggedItem_other (fun hc => ?_) (hdist q (List.mem_append_left _ hq) z (by simp))
    obtain ⟨t, ht, e⟩ := hsegA q hc
    exact hdist' q hq t ht e.symm
  have hfR : (y :: R).map (flaggedItem A0 x.1 z.1) = y :: R := by
    conv => rhs; rw [← List.map_id (y :: R)]
    refine List.map_congr_left fun q hq => flaggedItem_other (fun hc => ?_) (hRz q hq)
    obtain ⟨t, ht, e⟩ := hsegA q hc
    exact hdist t (List.mem_append_right _ ht) q (List.mem_append_left _ hq) e
  have hfz : flaggedItem A0 x.1 z.1 z = (z.1, { z.2 with decoded := true }) := by
    unfold flaggedItem
    rw [if_neg (hA0 ▸ c.due.z_not), if_pos rfl]
  obtain ⟨F, hF⟩ : ∃ F, F = P.map (flaggedItem A0 x.1 z.1) := ⟨_, rfl⟩
  obtain ⟨cc, L, hUeq, hL1, hL2, hL3⟩ := c.facing.eq
  have hUl : U.list = Q ++ (F ++ y :: (R ++ [(z.1, { z.2 with decoded := true })])) := by
    rw [hUeq]
    dsimp only
    rw [← hA0, hvl, hul, List.map_append, List.map_append, List.map_append, hfQ, hfR, List.map_singleton, hfz, hF]
    rfl
  -- the items of the GOP
  have hPmem : ∀ q ∈ P, q ∈ u.list := fun q hq => by rw [hul]; simp [hq]
  have hPT : ∀ q ∈ P, q ∈ T := fun q hq => by rw [hTP]; exact List.mem_append_left _ hq
  have hPz : ∀ q ∈ P, q.1 ≠ z.1 := fun q hq => hdist q (List.mem_append_right _ hq) z (by simp)
  have hFn : ∀ q ∈ F, (q.2.status = .P → q.2.isSei = false ∧ q.2.nalu.isSome = true) ∧ ∃ m, q.2.nalu = some m ∧ (m.firstInGop = true → q.2.linked = true) := by
    intro q hq
    rw [hF] at hq
    obtain ⟨t, ht, rfl⟩ := List.mem_map.1 hq
    obtain ⟨n1, n2, -⟩ := flaggedItem_nalu A0 x.1 z.1 t
    obtain ⟨mt, hmt, hlk⟩ := h.seen t (hPT t ht)
    refine ⟨fun hs => ⟨?_, by rw [n1, hmt]; rfl⟩, mt, by rw [n1, hmt], fun hf => ?_⟩
    · rw [n2] at hs
      have : t ∈ x :: xs := by rw [← hpP]; exact mem_pending.2 ⟨ht, hs⟩
      have := (c.due.plain t (List.mem_append_left _ this)).1
      unfold Item.isSei at this ⊢
      rw [n1]; exact this
    · by_cases hs : t.2.status = .P
      · have ht' : t ∈ x :: xs := by rw [← hpP]; exact mem_pending.2 ⟨ht, hs⟩
        have htx : t = x := by
          rcases List.mem_cons.1 ht' with e | e
          · exact e
          · have := c.due.rest t e
            unfold Item.isFirst at this
            rw [hmt] at this
            dsimp only at this
            rw [hf] at this; cases this
        subst htx
        unfold flaggedItem
        rw [if_pos (by rw [hA0]; simp)]
        simp
      · rw [flaggedItem_other (fun hc => ?_) (hPz t ht)]
        · exact hlk hs hf
        · exact hs (mem_pending.1 (by rw [hpP]; exact hinA t (hPmem t ht) hc)).2
  have hFlast : ∃ B a', F = B ++ [a'] ∧ a'.2.status = .P := by
    refine ⟨A.map (flaggedItem A0 x.1 z.1), flaggedItem A0 x.1 z.1 a, by rw [hF, hPa, List.map_append]; rfl, ?_⟩
    rw [(flaggedItem_nalu _ _ _ a).2.1, haP]
  obtain ⟨my, hmy, -⟩ := (c.due.plain y (by simp)).2
  have hyl : y.2.linked = false := by
    have := c.after
    cases rest with
    | nil => exact absurd rfl more
    | cons q t => exact this.1.linked
  have hmark : ∃ kk, markLoop U.list = .ok (Q ++ (F.map struck ++ y :: (R ++ [(z.1, { z.2 with decoded := true })])), kk + 1, true) := by
    cases hFe : F with
    | nil =>
      obtain ⟨B, a', e, -⟩ := hFlast
      rw [hFe] at e
      exact absurd e.symm (by simp)
    | cons f0 F0 =>
      obtain ⟨kk, e⟩ := markLoop_gop (y := y) (R := R ++ [(z.1, { z.2 with decoded := true })]) ⟨my, hmy, by unfold Item.isFirst at hyf; rw [hmy] at hyf; exact hyf⟩ hyl F0 f0
        (fun q hq => (hFn q (by rw [hFe]; exact hq)).1) (fun q hq => (hFn q (by rw [hFe]; exact List.mem_cons_of_mem _ hq)).2) (by
          obtain ⟨B, a', e, hs⟩ := hFlast
          exact ⟨a', by rw [← hFe, e]; simp, hs⟩)
      refine ⟨kk, ?_⟩
      rw [hUl, hFe]
      exact markLoop_skip h.done e
  obtain ⟨kk, hmark⟩ := hmark
  obtain ⟨L2, hL2e⟩ : ∃ L2, L2 = Q ++ (F.map struck ++ y :: (R ++ [(z.1, { z.2 with decoded := true })])) := ⟨_, rfl⟩
  rw [← hL2e] at hmark
  -- the fields
  have wf := c.read.flags
  have hUsig : U.flags = u.flags := by
    rw [hUeq]; dsimp only; rw [wf]; obtain ⟨g, L, -, -, e⟩ := c.same; rw [e]
  have hUlost : U.gop.lost = true := by rw [hUeq]; dsimp only; rw [c.read.gop]
  have hUtrans : U.gop.transLost = false := by rw [hUeq]; dsimp only; rw [c.read.gop]; exact c.transLost
  have hUcount : U.latestGop = cnt := by
    rw [hUeq]; dsimp only; rw [c.read.latestGop, ← h.count]; obtain ⟨g, L, -, -, e⟩ := c.same; rw [e]
  have hwithout : U.withoutSei = .ok { U with list := L2, latestGop := cnt + 1 } true := by
    unfold withoutSei
    rw [hmark]
    dsimp only
    rw [hUsig, h.signing, hUcount]
    rfl
  have hxF : struck (flaggedItem A0 x.1 z.1 x) ∈ L2 ∧ (struck (flaggedItem A0 x.1 z.1 x)).2.used = true ∧ (struck (flaggedItem A0 x.1 z.1 x)).2.status = .N := by
    have hxP := hsegP x (by simp)
    have hxs : x.2.status = .P := (mem_pending.1 (by rw [hpP]; simp : x ∈ pending P)).2
    refine ⟨?_, ?_⟩
    · rw [hL2e, hF]
      exact List.mem_append_right _ (List.mem_append_left _ (List.mem_map_of_mem (List.mem_map_of_mem hxP)))
    · unfold struck flaggedItem
      rw [if_pos (by rw [hA0]; simp : x.1 ∈ A0)]
      simp [hxs]
  have hverdict : ∀ pp, verdict (getStats L2) false pp = .notOk := by
    intro pp
    refine verdict_bad ?_ _ _
    show 0 < (L2.filter _).length
    refine List.length_pos_of_mem (List.mem_filter.2 ⟨hxF.1, ?_⟩)
    rw [hxF.2.1, hxF.2.2]; rfl
  have hval : U.validate = .ok { U with list := clearUsed L2, latestGop := cnt + 1, synced := true, rep := { U.rep with latest := concludeLatest U.rep.latest true .notOk (-1) (-1) } } () := by
    unfold validate verifyGop
    rw [hUlost, hUtrans]
    simp only [Bool.not_false, Bool.and_self, if_true]
    rw [hwithout]
    simp only [Res.andThen_ok]
    unfold conclude
    dsimp only
    rw [hUsig, h.notFirst, hverdict]
    simp only [Bool.false_and, Bool.false_eq_true, if_false]
    rw [hUlost]
  have hround : u.hasPending.1.round Γ.env = .ok (finish { U with list := clearUsed L2, latestGop := cnt + 1, synced := true, rep := { U.rep with latest := concludeLatest U.rep.latest true .notOk (-1) (-1) } }) () := by
    rw [c.round]
    unfold conduct
    rw [if_pos (by rw [hUsig]; exact h.signing), hval]
    rfl
  obtain ⟨u', hu'⟩ : ∃ u', u' = finish { U with list := clearUsed L2, latestGop := cnt + 1, synced := true, rep := { U.rep with latest := concludeLatest U.rep.latest true .notOk (-1) (-1) } } := ⟨_, rfl⟩
  rw [← hu'] at hround
  have hsig' : u'.flags.signing = true := by rw [hu']; show U.flags.signing = true; rw [hUsig]; exact h.signing
  obtain ⟨gv, Lv, -, -, hveq⟩ := c.same
  have hul' : u'.list = clearUsed (Q ++ F.map struck) ++ ((y :: R) ++ [(z.1, { z.2 with decoded := true, used := false })]) := by
    rw [hu']
    show clearUsed L2 = _
    have hcl : ∀ l : NList, (∀ q ∈ l, q.2.used = false) → clearUsed l = l := by
      intro l hl
      unfold clearUsed
      conv => rhs; rw [← List.map_id l]
      exact List.map_congr_left fun q hq => by rw [← hl q hq]; rfl
    have e2 : clearUsed (y :: R) = y :: R := hcl _ fun q hq => h.unused q (by rw [hul]; simp only [List.mem_append]; exact .inr (.inr (.inl hq)))
    have e3 : L2 = (Q ++ F.map struck) ++ ((y :: R) ++ [(z.1, { z.2 with decoded := true })]) := by rw [hL2e]; simp
    rw [e3]
    unfold clearUsed at e2 ⊢
    rw [List.map_append, List.map_append (l₁ := y :: R), e2]
    rfl
  have hflag' : u'.flags = { u.flags with first := false, hasAuth := true } := by
    rw [hu']
    show { U.flags with first := !U.flags.signing, hasAuth := true } = _
    rw [hUsig, h.signing]; rfl
  have hlat0 : U.rep.latest = w.rep.latest := by rw [hUeq]
  have hkc : U.rep.latest.keyChanged = false := by rw [hlat0]; exact c.read.knows.same
  refine ⟨u', clearUsed (Q ++ F.map struck), y :: R, (z.1, { z.2 with decoded := true, used := false }), ?_, ?_, ?_⟩
  · rw [rounds, c.found, if_pos rfl, hround, Res.andThen_ok, hsig', if_pos rfl]
  · have hcs : ∀ st, (clearUsed (Q ++ F.map struck)).countP (hasStatus st) = Q.countP (hasStatus st) + (F.map struck).countP (hasStatus st) := by
      intro st
      unfold clearUsed
      rw [List.countP_map, ← List.countP_append]; rfl
    have hms : ∀ q ∈ F.map struck, ∃ t ∈ P, q.2.status = .N ∨ q.2.status = t.2.status := by
      intro q hq
      obtain ⟨q', hq', rfl⟩ := List.mem_map.1 hq
      rw [hF] at hq'
      obtain ⟨t, ht, rfl⟩ := List.mem_map.1 hq'
      have hs := (flaggedItem_nalu A0 x.1 z.1 t).2.1
      refine ⟨t, ht, ?_⟩
      unfold struck
      rw [hs]
      by_cases e : t.2.status = .P
      · rw [if_pos e]; exact .inl rfl
      · rw [if_neg e]; exact .inr hs
    refine ⟨?_, ?_, hsig', by rw [hflag'], by rw [hu']; rfl, ?_, ?_, hul', ?_, ⟨refAfter Γ.H r (p :: ps), ?_, ?_⟩, ?_, ?_, ?_, ?_, ?_, by rw [hu']; rfl, ?_, ?_, ?_, ?_, h.status, h.nalu, h.hash, ?_, ?_⟩
    · rw [hu']; show U.codec = _
      rw [hUeq]; dsimp only; rw [c.read.codec, hveq]; exact h.codec
    · rw [hu']; show U.legacy = _
      rw [hUeq]; dsimp only; rw [c.read.legacy, hveq]; exact h.legacy
    · rw [hu']
      refine c.read.knows.same_of ?_ ?_ ?_ ?_
      · show U.d = _; rw [hUeq]
      · show U.typ = _; rw [hUeq]
      · show U.key = _; rw [hUeq]
      · exact hkc
    · have hbrk : u'.brk = u.brk := by
        rw [hu']; show U.brk = _
        rw [hUeq]; dsimp only; rw [c.read.brk, hveq]
      rw [hbrk]
      refine WF.of_addr h.wf ?_
      rw [hul', hul, hF]
      unfold clearUsed
      simp only [List.map_append, List.map_map, List.append_assoc]
      congr 1
      congr 1
      refine List.map_congr_left fun q _ => ?_
      show (struck (flaggedItem A0 x.1 z.1 q)).1 = q.1
      rw [struck_addr]
      unfold flaggedItem; split <;> (try split) <;> rfl
    · refine pending_nil.2 fun q hq => ?_
      obtain ⟨t, ht, rfl⟩ := List.mem_map.1 hq
      show t.2.status ≠ .P
      rcases List.mem_append.1 ht with ht | ht
      · exact pending_nil.1 h.done t ht
      · exact pending_nil.1 (struck_pending F) t ht
    · rw [pending_cons, if_pos hyP, hRp]
      exact c.after
    · rw [← refAfter_append, c.ref, hu']
      show _ = U.buddies.take _
      rw [hUeq]; dsimp only; rw [c.read.buddies, hveq]
    · intro q hq
      rw [hu'] at hq
      obtain ⟨t, -, rfl⟩ := List.mem_map.1 (show q ∈ clearUsed L2 from hq)
      rfl
    · rw [hcs, h.fails]
      congr 1
      have e1 : (F.map struck).countP (hasStatus .N) = (pending P).length := by
        rw [hF, List.map_map, List.countP_map]
        unfold pending
        rw [← List.countP_eq_length_filter]
        refine List.countP_congr fun t ht => ?_
        have hs := (flaggedItem_nalu A0 x.1 z.1 t).2.1
        have hg := (h.good t (hPT t ht)).1
        simp only [Function.comp, hasStatus, decide_eq_true_eq]
        unfold struck
        rw [hs]
        by_cases e : t.2.status = .P
        · rw [if_pos e]; simp [e]
        · rw [if_neg e, hs]
          exact ⟨fun hc => absurd hc hg, fun hc => absurd hc e⟩
      rw [e1, hpP, List.length_cons, Rows.length c.seg.2]
    · intro q hq
      obtain ⟨t, ht, rfl⟩ := List.mem_map.1 hq
      show t.2.status ≠ .M ∧ t.2.status ≠ .E
      rcases List.mem_append.1 ht with ht | ht
      · exact h.noHoles t ht
      · obtain ⟨t0, ht0, e | e⟩ := hms t ht
        · rw [e]; decide
        · rw [e]; exact (h.good t0 (hPT t0 ht0)).2
    · intro q hq; exact h.good q (by rw [hTP]; exact List.mem_append_right _ hq)
    · rw [hu']; show 2 * Γ.size ≤ U.buddies.length
      rw [hUeq]; dsimp only; rw [c.read.buddies, hveq]; exact h.budLen
    · rw [hu']; show U.linked.length = _
      rw [hUeq]; exact hL3
    · rw [hu']; show (U.linked.drop _).take _ = _
      rw [hUeq]; dsimp only
      rw [hL2, c.seg.1.hash]
      unfold Scene.hash
      rw [if_pos first]
    · rw [hu']; show U.primary = none ∨ U.primary = _
      rw [hUeq]; exact .inr rfl
    · rw [hu']; show U.rep.thisVersion = _
      rw [hUeq]; dsimp only; rw [c.read.thisVersion, hveq]; exact h.version
    · intro q hq; exact h.seen q (by rw [hTP]; exact List.mem_append_right _ hq)
    · exact Tied.suffix (P := P) (hTP ▸ h.tied)
  · refine ⟨Nat.succ_pos _, rfl, by rw [hflag'], ?_, ?_, ?_, ?_, ?_⟩
    · rw [hu']; show Told Γ i U.d
      rw [hUeq]; exact c.read.told
    · rw [hu']; show ∃ cc, U.sigHash = _
      rw [hUeq]; exact c.read.sigHash
    · rw [hu']
      show (concludeLatest U.rep.latest true .notOk (-1) (-1)).auth = _
      unfold concludeLatest
      dsimp only
      rw [hkc, hlat0, c.read.auth]
      rcases hst with ⟨h', -⟩ | h'
      · rw [(c.latest.2 h'.2).1]; rfl
      · rw [c.latest.1 h'.hasAuth, h'.auth]; rfl
    · rw [hu']; rfl
    · rw [hu']
      show U.rep.latest.received + -1 = _
      rw [hlat0, c.read.received]
      rcases hst with ⟨h', e⟩ | h'
      · rw [(c.latest.2 h'.2).2.2, e]; rfl
      · rw [c.latest.1 h'.hasAuth, h'.received]; omega

theorem Tied.snoc {l : NList} (h : Tied l) {y : Nat × Item} (hy : y.2.status = .P → y.2.isFirst = true → (∃ a, l.getLast? = some a ∧ a.2.status = .P) ∨ pending l = []) :
    Tied (l ++ [y]) := by
  intro A a w B e h1 h2
  rcases List.eq_nil_or_concat B with e' | ⟨B', b, e'⟩
  · subst e'
    have e2 : l ++ [y] = (A ++ [a]) ++ [w] := by rw [e]; simp
    obtain ⟨e3, e4⟩ := List.append_inj' e2 rfl
    cases e4
    rcases hy h1 h2 with ⟨a', ha, hs⟩ | h3
    · rw [e3] at ha
      have : a = a' := by simpa using ha
      exact .inl (this ▸ hs)
    · exact .inr (e3 ▸ h3)
  · rw [List.concat_eq_append] at e'
    subst e'
    have e2 : l ++ [y] = (A ++ a :: w :: B') ++ [b] := by rw [e]; simp
    exact h A a w B' (List.append_inj' e2 rfl).1 h1 h2

/-- After the last round of a call. -/
structure Closed (Γ : Scene) (i : SeiInfo) (p : Piece) (ps rest : List Piece) (k j : Nat) (m : Nalu) (s : Validator) : Prop where
  codec : s.codec = Γ.codec
  legacy : s.legacy = false
  signing : s.flags.signing = true
  hasAuth : s.flags.hasAuth = true
  notFirst : s.flags.first = false
  synced : s.synced = true
  afterNext : s.gop.afterNext = false
  knows : Knows Γ s
  wf : WF s.list s.brk
  list : ∃ Q T z, s.list = Q ++ (T ++ [z]) ∧ pending Q = [] ∧ z.2.nalu = some m ∧ z.2.status = .ok ∧
    (∃ r, Rows Γ r rest (pending T) ∧ refAfter Γ.H r rest = s.buddies.take Γ.size) ∧ Q.countP (hasStatus .N) = k ∧ ps.length + 1 ≤ Q.countP (hasStatus .ok) ∧
    (∀ x ∈ Q, x.2.status ≠ .M ∧ x.2.status ≠ .E) ∧ (∀ x ∈ T, x.2.status ≠ .N ∧ x.2.status ≠ .M ∧ x.2.status ≠ .E) ∧ (∀ x ∈ T, Passed x) ∧ Tied T
  unused : ∀ x ∈ s.list, x.2.used = false
  budLen : 2 * Γ.size ≤ s.buddies.length
  count : s.latestGop = i.counter
  linkLen : s.linked.length = 128
  link : (s.linked.drop Γ.size).take Γ.size = Γ.H p.bytes
  primary : s.primary = none ∨ s.primary = some Γ.oid
  version : s.rep.thisVersion = []
  pending : s.rep.latest.pending = rest.length
  auth : s.rep.latest.auth = if j = 0 then .ok else .notOk
  expected : s.rep.latest.expected = if j = 0 then (i.num.toNat : Int) else -1
  received : s.rep.latest.received = (ps.length : Int) + 1 - j

/-- The GOP of the SEI. -/
theorem gap_last (hΓ : Γ.Ok) (ho : Γ.env.ov = .exact) (hn : IsSei Γ i n m) (h : Gap Γ i (p :: ps ++ rest) cnt lnk k Q T z m u)
    (first : p.first = true) (others : ∀ q ∈ ps, q.first = false) (next : ∀ q t, rest = q :: t → q.first = true)
    (hst : Fresh z u ∧ j = 0 ∨ Begun Γ i j z u) (hb : i.counter = cnt + 1) (hlk : i.linked = lnk) (gopHash : ∃ r0, i.gopHash = Γ.H (pieceHashes Γ.H r0 (p :: ps)).flatten)
    (num : i.num.toNat ≤ ps.length + 1) (f : Nat) :
    ∃ s, u.rounds Γ.env (f + 2) = .ok s () ∧ Closed Γ i p ps rest k j m s := by
  obtain ⟨r, x, xs, ys, v, w, U, c⟩ := gap_face hΓ ho hn h first others next (hst.imp And.left id) (b := false) (by rw [hb]; simp)
  obtain ⟨pre, T1, hT, hpre, hT1⟩ := List.filter_eq_append_iff.1 (show T.filter _ = (x :: xs) ++ ys from c.pend)
  have hpP : SV.pending pre = x :: xs := hpre
  have hpT : SV.pending T1 = ys := hT1
  have hxsl : xs.length = ps.length := Rows.length c.seg.2
  have hyl : ys.length = rest.length := Rows.length c.after
  have hle := hΓ.le
  have hnd : (u.list.map Prod.fst).Nodup := h.wf.nodup
  have hul : u.list = (Q ++ pre) ++ (T1 ++ [z]) := by rw [h.list, hT]; simp
  obtain ⟨gv, Lv, -, -, hveq⟩ := c.same
  have hvl : v.list = u.list := by rw [hveq]
  obtain ⟨A0, hA0⟩ : ∃ A0, A0 = (x :: xs).map Prod.fst := ⟨_, rfl⟩
  obtain ⟨cc, L, hUeq, hL1, hL2, hL3⟩ := c.facing.eq
  have hUd : U.d = w.d := by rw [hUeq]
  have hUf : U.flags = u.flags := by rw [hUeq]; dsimp only; rw [c.read.flags, hveq]
  have hUl : U.rep.latest = w.rep.latest := by rw [hUeq]
  have hUlk : buf Γ.size U.linked = lnk := by
    have : buf Γ.size L = L.take Γ.size := by
      unfold buf
      rw [List.take_append_of_le_length (by omega)]
    rw [hUeq]; dsimp only
    rw [this, hL1, hveq]; exact h.link
  have hval := validate_settled (z := z) (x := x) (u := U)
    (l := v.list) (A := (x :: xs).map Prod.fst) (b := x.1) (a := z.1) (k := xs.length + 1) (by rw [hUeq]) (by rw [hUeq]) (by rw [hUeq]; dsimp only; rw [c.read.gop])
    (gopHashOk_of (by
      rw [hUd, c.read.knows.size, c.read.told.gopHash]
      obtain ⟨r0, e⟩ := gopHash
      rw [hUeq]; dsimp only
      rw [buf_ovl (hΓ.len _), e, c.hashes r0]))
    (linkedOk_of (by
      rw [hUd, c.read.knows.size, hUlk, c.read.told.linked]
      exact .inl hlk.symm))
    c.due.mem_z.1 rfl c.due.mem_z.2 c.facing.nextSei c.due.wf.nodup c.due.z_not c.due.unused c.due.inA
    (by rw [count_segment c.due.pend c.due.wf.nodup]; rfl)
    (c.due.mem_seg (y := x) (by simp)).1 c.due.x_in
    (by
      rw [hUd, c.read.told.num]; omega)
  rw [← hA0] at hval
  have hround : u.hasPending.1.round Γ.env = .ok (finish { U with list := clearUsed (v.list.map (settled A0 x.1 z.1)), latestGop := U.d.gopCounter, synced := true, rep := { U.rep with latest := concludeLatest U.rep.latest false .ok U.d.numSent.toNat ((xs.length + 1 : Nat) : Int) } }) () := by
    rw [c.round]
    unfold conduct
    rw [if_pos (by rw [hUf]; exact h.signing), hval]
    rfl
  obtain ⟨s1, hs1⟩ : ∃ s1, s1 = finish { U with list := clearUsed (v.list.map (settled A0 x.1 z.1)), latestGop := U.d.gopCounter, synced := true, rep := { U.rep with latest := concludeLatest U.rep.latest false .ok U.d.numSent.toNat ((xs.length + 1 : Nat) : Int) } } := ⟨_, rfl⟩
  rw [← hs1] at hround
  have hsig : s1.flags.signing = true := by rw [hs1]; show U.flags.signing = true; rw [hUf]; exact h.signing
  have hflag : s1.flags = { u.flags with first := false, hasAuth := true } := by
    rw [hs1]
    show { U.flags with first := !U.flags.signing, hasAuth := true } = _
    rw [hUf, h.signing]; rfl
  -- the list
  have hdist : ∀ q ∈ Q ++ pre, ∀ t ∈ T1 ++ [z], q.1 ≠ t.1 := by
    rw [hul, List.map_append, List.nodup_append] at hnd
    exact fun q hq t ht => hnd.2.2 _ (List.mem_map_of_mem hq) _ (List.mem_map_of_mem ht)
  have hTz : ∀ q ∈ T1, q.1 ≠ z.1 := by
    rw [hul, ← List.append_assoc, List.map_append, List.nodup_append] at hnd
    exact fun q hq => hnd.2.2 _ (List.mem_map_of_mem (List.mem_append_right _ hq)) _ (List.mem_map_of_mem (f := Prod.fst) (List.mem_singleton_self z))
  have hsegP : ∀ q ∈ x :: xs, q ∈ pre := fun q hq => (mem_pending.1 (by rw [hpP]; exact hq)).1
  have hafT : T1.map (after A0 x.1 z.1) = T1 := by
    conv => rhs; rw [← List.map_id T1]
    refine List.map_congr_left fun q hq => after_other (fun hc => ?_) (hTz q hq) (h.unused q (by rw [hul]; simp [hq]))
    rw [hA0] at hc
    obtain ⟨t, ht, e⟩ := List.mem_map.1 hc
    exact hdist t (List.mem_append_right _ (hsegP t ht)) q (List.mem_append_left _ hq) e
  have hafz : after A0 x.1 z.1 z = (z.1, { z.2 with decoded := true, status := .ok, used := false }) := by
    unfold after settled
    rw [if_neg (hA0 ▸ c.due.z_not), if_pos rfl]
  have hlist : s1.list = (Q ++ pre).map (after A0 x.1 z.1) ++ (T1 ++ [(z.1, { z.2 with decoded := true, status := .ok, used := false })]) := by
    rw [hs1]
    show clearUsed (v.list.map _) = _
    have : clearUsed (v.list.map (settled A0 x.1 z.1)) = v.list.map (after A0 x.1 z.1) := by
      unfold clearUsed
      rw [List.map_map]; rfl
    rw [this, hvl, hul, List.map_append, List.map_append (l₁ := T1), hafT, List.map_singleton, hafz]
  have hpQ : SV.pending ((Q ++ pre).map (after A0 x.1 z.1)) = [] := by
    refine after_pending (xs := x :: xs) (ys := []) ?_ (fun y hy => by rw [hA0]; exact List.mem_map_of_mem hy) (fun y hy => by cases hy)
    rw [pending_append, h.done, hpP, List.append_nil, List.nil_append]
  have hys1 : SV.pending s1.list = ys := by
    rw [hlist, pending_append, hpQ, pending_append, hpT, pending_cons, if_neg (by simp)]
    simp [SV.pending]
  have hs1p : ∀ y ∈ s1.list, y.2.status = .P → y.2.isSei = false := by
    intro y hy hyp
    have : y ∈ ys := by rw [← hys1]; exact mem_pending.2 ⟨hy, hyp⟩
    exact (c.due.plain y (by simp [this])).1
  obtain ⟨g', hg', hga⟩ := rounds_plain (env := Γ.env) (k := f) hsig hs1p
  refine ⟨{ s1 with gop := g' }, ?_, ?_⟩
  · rw [rounds, c.found, if_pos rfl, hround, Res.andThen_ok, hsig, if_pos rfl]
    exact hg'
  · have hkc : U.rep.latest.keyChanged = false := by rw [hUl]; exact c.read.knows.same
    have hnumU : U.d.numSent = i.num := by rw [hUd]; exact c.read.told.num
    have hlatest : s1.rep.latest.auth = worse w.rep.latest.auth .ok ∧ s1.rep.latest.expected = (if w.rep.latest.expected ≠ -1 then w.rep.latest.expected + i.num.toNat else w.rep.latest.expected) ∧
        s1.rep.latest.received = w.rep.latest.received + ((xs.length + 1 : Nat) : Int) := by
      rw [hs1]
      show (concludeLatest U.rep.latest false .ok U.d.numSent.toNat ((xs.length + 1 : Nat) : Int)).auth = _ ∧ (concludeLatest U.rep.latest false .ok U.d.numSent.toNat ((xs.length + 1 : Nat) : Int)).expected = _ ∧
        (concludeLatest U.rep.latest false .ok U.d.numSent.toNat ((xs.length + 1 : Nat) : Int)).received = _
      unfold concludeLatest
      dsimp only
      rw [hkc, hUl, hnumU]
      exact ⟨rfl, rfl, rfl⟩
    rw [c.read.auth, c.read.expected, c.read.received] at hlatest
    refine ⟨?_, ?_, hsig, by show s1.flags.hasAuth = _; rw [hflag], by show s1.flags.first = _; rw [hflag], by rw [hs1]; rfl, hga, ?_, ?_,
      ⟨(Q ++ pre).map (after A0 x.1 z.1), T1, _, hlist, hpQ, h.nalu, rfl, ⟨refAfter Γ.H r (p :: ps), ?_, ?_⟩, ?_, ?_, ?_, ?_, ?_, ?_⟩, ?_, ?_, ?_, ?_, ?_, ?_, ?_, ?_, ?_, ?_, ?_⟩
    · show s1.codec = _
      rw [hs1]; show U.codec = _
      rw [hUeq]; dsimp only; rw [c.read.codec, hveq]; exact h.codec
    · show s1.legacy = _
      rw [hs1]; show U.legacy = _
      rw [hUeq]; dsimp only; rw [c.read.legacy, hveq]; exact h.legacy
    · refine c.read.knows.same_of ?_ ?_ ?_ ?_
      · show s1.d = _; rw [hs1]; exact hUd
      · show s1.typ = _; rw [hs1]; show U.typ = _; rw [hUeq]
      · show s1.key = _; rw [hs1]; show U.key = _; rw [hUeq]
      · show s1.rep.latest.keyChanged = _; rw [hs1]; exact hkc
    · show WF s1.list s1.brk
      have hbrk : s1.brk = u.brk := by
        rw [hs1]; show U.brk = _
        rw [hUeq]; dsimp only; rw [c.read.brk, hveq]
      rw [hbrk]
      refine WF.of_addr h.wf ?_
      rw [hlist, hul, List.map_append, List.map_append (l₁ := Q ++ pre), List.map_map]
      congr 1
      · exact List.map_congr_left fun w _ => after_addr _ _ _ w
      · rw [List.map_append, List.map_append]; rfl
    · rw [hpT]; exact c.after
    · rw [← refAfter_append, c.ref]
      show _ = s1.buddies.take _
      rw [hs1]; show _ = U.buddies.take _
      rw [hUeq]; dsimp only; rw [c.read.buddies, hveq]
    · rw [List.countP_map, ← h.fails, List.countP_append]
      have e2 : pre.countP (hasStatus .N ∘ after A0 x.1 z.1) = 0 := by
        rw [List.countP_eq_zero]
        intro q hq
        simp only [Function.comp, hasStatus, decide_eq_true_eq]
        rcases after_status A0 x.1 z.1 q with e | e
        · rw [e]; exact (h.good q (by rw [hT]; exact List.mem_append_left _ hq)).1
        · rw [e]; decide
      rw [e2, Nat.add_zero]
      refine List.countP_congr fun q hq => ?_
      have : after A0 x.1 z.1 q = q := by
        refine after_other (fun hc => ?_) (hdist q (List.mem_append_left _ hq) z (by simp)) (h.unused q (by rw [hul]; simp [hq]))
        rw [hA0] at hc
        have := c.due.in_seg (y := q) (by rw [hvl, hul]; simp [hq]) hc
        exact pending_nil.1 h.done q hq (mem_pending.1 (by rw [hpP]; exact this : q ∈ SV.pending pre)).2
      simp only [Function.comp, this]
    · have hsub : (x :: xs).Sublist (Q ++ pre) := by
        refine List.Sublist.trans ?_ (List.sublist_append_right _ _)
        rw [← hpP]; exact List.filter_sublist
      have h3 := (hsub.map (after A0 x.1 z.1)).countP_le (p := hasStatus .ok)
      have h4 : ((x :: xs).map (after A0 x.1 z.1)).countP (hasStatus .ok) = ((x :: xs).map (after A0 x.1 z.1)).length := by
        rw [List.countP_eq_length]
        intro y hy
        obtain ⟨t, ht, rfl⟩ := List.mem_map.1 hy
        unfold hasStatus after settled
        rw [if_pos (by rw [hA0]; exact List.mem_map_of_mem ht)]
        rfl
      rw [h4, List.length_map, List.length_cons, hxsl] at h3
      exact h3
    · intro q hq
      obtain ⟨t, ht, rfl⟩ := List.mem_map.1 hq
      rcases after_status A0 x.1 z.1 t with e | e
      · rw [e]
        rcases List.mem_append.1 ht with ht | ht
        · exact h.noHoles t ht
        · exact (h.good t (by rw [hT]; exact List.mem_append_left _ ht)).2
      · rw [e]; decide
    · intro q hq; exact h.good q (by rw [hT]; exact List.mem_append_right _ hq)
    · intro q hq; exact h.seen q (by rw [hT]; exact List.mem_append_right _ hq)
    · exact Tied.suffix (P := pre) (hT ▸ h.tied)
    · intro q hq
      have hq : q ∈ s1.list := hq
      rw [hs1] at hq
      obtain ⟨t, -, rfl⟩ := List.mem_map.1 (show q ∈ clearUsed (v.list.map (settled A0 x.1 z.1)) from hq)
      rfl
    · show 2 * Γ.size ≤ s1.buddies.length
      rw [hs1]; show 2 * Γ.size ≤ U.buddies.length
      rw [hUeq]; dsimp only; rw [c.read.buddies, hveq]; exact h.budLen
    · show s1.latestGop = _
      rw [hs1]; show U.d.gopCounter = _
      rw [hUd]; exact c.read.told.counter
    · show s1.linked.length = _
      rw [hs1]; show U.linked.length = _
      rw [hUeq]; exact hL3
    · show (s1.linked.drop _).take _ = _
      rw [hs1]; show (U.linked.drop _).take _ = _
      rw [hUeq]; dsimp only
      rw [hL2, c.seg.1.hash]
      unfold Scene.hash
      rw [if_pos first]
    · show s1.primary = none ∨ s1.primary = _
      rw [hs1]; show U.primary = none ∨ U.primary = _
      rw [hUeq]; exact .inr rfl
    · show s1.rep.thisVersion = _
      rw [hs1]; show U.rep.thisVersion = _
      rw [hUeq]; dsimp only; rw [c.read.thisVersion, hveq]; exact h.version
    · show s1.rep.latest.pending = _
      rw [← hyl, ← hys1, hs1]; rfl
    · show s1.rep.latest.auth = _
      rw [hlatest.1]
      rcases hst with ⟨h', e⟩ | h'
      · rw [(c.latest.2 h'.2).1, if_pos e]; rfl
      · rw [c.latest.1 h'.hasAuth, h'.auth, if_neg (by have := h'.pos; omega)]; rfl
    · show s1.rep.latest.expected = _
      rw [hlatest.2.1]
      rcases hst with ⟨h', e⟩ | h'
      · rw [(c.latest.2 h'.2).2.1, if_pos e]; simp
      · rw [c.latest.1 h'.hasAuth, h'.expected, if_neg (by have := h'.pos; omega : ¬ j = 0)]; rfl
    · show s1.rep.latest.received = _
      rw [hlatest.2.2]
      rcases hst with ⟨h', e⟩ | h'
      · rw [(c.latest.2 h'.2).2.2, hxsl, e]; omega
      · rw [c.latest.1 h'.hasAuth, h'.received, hxsl]; omega

/-- The hash of the first NAL unit of the last of some GOPs. -/
def linkAfter (Γ : Scene) (lnk : Bytes) (ds : List (List Piece)) : Bytes :=
  ds.foldl (fun l g => match g with | p :: _ => Γ.H p.bytes | [] => l) lnk

/-- All rounds of a call: the GOPs `ds` have no SEI. -/
theorem gap_rounds (hΓ : Γ.Ok) (ho : Γ.env.ov = .exact) (hn : IsSei Γ i n m) (first : p.first = true) (others : ∀ q ∈ ps, q.first = false)
    (next : ∀ q t, rest = q :: t → q.first = true) (gopHash : ∃ r0, i.gopHash = Γ.H (pieceHashes Γ.H r0 (p :: ps)).flatten) (num : i.num.toNat ≤ ps.length + 1) (f : Nat) :
    ∀ (ds : List (List Piece)) {cnt : UInt32} {lnk : Bytes} {k j : Nat} {Q T : NList} {z : Nat × Item} {u : Validator}, (∀ g ∈ ds, Started g) →
      Gap Γ i (ds.flatten ++ (p :: ps ++ rest)) cnt lnk k Q T z m u → (Fresh z u ∧ j = 0 ∨ Begun Γ i j z u) → i.counter.toNat = cnt.toNat + ds.length + 1 →
      i.linked = linkAfter Γ lnk ds →
      ∃ s, u.rounds Γ.env (ds.length + (f + 2)) = .ok s () ∧ Closed Γ i p ps rest (k + ds.flatten.length) (j + ds.length) m s := by
  intro ds
  induction ds with
  | nil =>
    intro cnt lnk k j Q T z u _ h hst hc hl
    have hlt := i.counter.toNat_lt
    obtain ⟨s, h1, h2⟩ := gap_last hΓ ho hn h first others next hst (by
      rw [List.length_nil, Nat.add_zero] at hc
      apply UInt32.toNat.inj
      rw [hc, UInt32.toNat_add]
      show _ = (cnt.toNat + 1) % _
      rw [Nat.mod_eq_of_lt (by omega)]) hl gopHash num f
    refine ⟨s, ?_, h2⟩
    rw [List.length_nil, Nat.zero_add]; exact h1
  | cons g ds ih =>
    intro cnt lnk k j Q T z u hs h hst hc hl
    obtain ⟨p0, t0, rfl, hf, ht⟩ := hs g List.mem_cons_self
    have hlt := i.counter.toNat_lt
    rw [List.length_cons] at hc
    have hc1 : (cnt + 1).toNat = cnt.toNat + 1 := by
      rw [UInt32.toNat_add]
      show (cnt.toNat + 1) % _ = _
      rw [Nat.mod_eq_of_lt (by omega)]
    have hnx : ∀ q t, ds.flatten ++ (p :: ps ++ rest) = q :: t → q.first = true := by
      intro q t e
      cases ds with
      | nil => cases e; exact first
      | cons g' ds' =>
        obtain ⟨p1, t1, rfl, hf1, -⟩ := hs g' (by simp)
        cases e; exact hf1
    obtain ⟨u', Q', T', z', h1, h2, h3⟩ := gap_lost hΓ ho hn (rest := ds.flatten ++ (p :: ps ++ rest)) (by
      have : (p0 :: t0) ++ (ds.flatten ++ (p :: ps ++ rest)) = ((p0 :: t0) :: ds).flatten ++ (p :: ps ++ rest) := by rw [List.flatten_cons, List.append_assoc]
      rw [this]; exact h) hf ht hnx (by simp) hst (by omega) (ds.length + (f + 2))
    obtain ⟨s, h4, h5⟩ := ih (fun g hg => hs g (List.mem_cons_of_mem _ hg)) h2 (.inr h3) (by omega) hl
    refine ⟨s, ?_, ?_⟩
    · rw [← h4, ← h1, List.length_cons]
      congr 1
      omega
    · rw [List.flatten_cons, List.length_append, List.length_cons, List.length_cons]
      have e1 : k + (t0.length + 1 + ds.flatten.length) = k + (t0.length + 1) + ds.flatten.length := by omega
      have e2 : j + (ds.length + 1) = j + 1 + ds.length := by omega
      rw [e1, e2]; exact h5

end Validator
end SV
