import Verif.Proofs.LegacyCall
/-! What a good verdict of a session for the older format means. -/
namespace SV
namespace Legacy

/-- The items keep their status, or are found invalid. -/
def Kept (l l' : LList) : Prop :=
  ∀ x ∈ l, ∃ y ∈ l', y.1 = x.1 ∧ (y.2.status = x.2.status ∨ y.2.status = .N ∨ y.2.status = .E)

theorem Kept.refl (l : LList) : Kept l l := fun x hx => ⟨x, hx, rfl, .inl rfl⟩

theorem Kept.trans {l m n : LList} (h : Kept l m) (g : Kept m n) : Kept l n := by
  intro x hx
  obtain ⟨y, hy, e, h1⟩ := h x hx
  obtain ⟨z, hz, e', h2⟩ := g y hy
  refine ⟨z, hz, e'.trans e, ?_⟩
  rcases h2 with h2 | h2 | h2
  · rw [h2]; exact h1
  · exact .inr (.inl h2)
  · exact .inr (.inr h2)

theorem Kept.map {l : LList} {f : Nat × LItem → Nat × LItem} (h1 : ∀ x, (f x).1 = x.1)
    (h2 : ∀ x, (f x).2.status = x.2.status ∨ (f x).2.status = .N ∨ (f x).2.status = .E) : Kept l (l.map f) :=
  fun x hx => ⟨f x, List.mem_map_of_mem hx, h1 x, h2 x⟩

theorem Kept.set {l : LList} {a : Nat} {f : LItem → LItem} (h : ∀ i, (f i).status = i.status ∨ (f i).status = .N ∨ (f i).status = .E) :
    Kept l (l.set a f) := by
  unfold LList.set
  refine Kept.map (fun x => ?_) (fun x => ?_)
  · split <;> rfl
  · split
    · exact h x.2
    · exact .inl rfl

theorem Kept.cons {x x' : Nat × LItem} {l l' : LList} (h : Kept l l') (h1 : x'.1 = x.1)
    (h2 : x'.2.status = x.2.status ∨ x'.2.status = .N ∨ x'.2.status = .E) : Kept (x :: l) (x' :: l') := by
  intro y hy
  rcases List.mem_cons.1 hy with rfl | hy
  · exact ⟨x', .head _, h1, h2⟩
  · obtain ⟨z, hz, g⟩ := h y hy
    exact ⟨z, .tail _ hz, g⟩

theorem markLoop_kept {l : LList} {p : LList × Nat × Bool} (h : markLoop l = .ok p) : Kept l p.1 := by
  induction l generalizing p with
  | nil => cases h; exact Kept.refl _
  | cons x r ih =>
    unfold markLoop at h
    split at h
    · cases hr : markLoop r with
      | err e => rw [hr] at h; cases h
      | ub u => rw [hr] at h; cases h
      | ok q => rw [hr] at h; cases h; exact (ih hr).cons rfl (.inl rfl)
    · split at h
      · cases h
      · split at h
        · cases h; exact (Kept.refl r).cons rfl (.inl rfl)
        · cases hr : markLoop r with
          | err e => rw [hr] at h; cases h
          | ub u => rw [hr] at h; cases h
          | ok q => rw [hr] at h; cases h; exact (ih hr).cons rfl (.inr (.inl rfl))

theorem withoutSei_kept (s : Legacy) : s.withoutSei.Ends fun t => Kept s.list t.list := by
  unfold withoutSei
  split
  · trivial
  · exact Kept.refl _
  · rename_i l k f h; exact markLoop_kept (p := (l, k, f)) h

theorem addMissing_kept (s : Legacy) (n : Int) (app : Bool) (item : Nat) : Kept s.list (s.addMissing n app item).list := by
  unfold addMissing
  split
  · exact Kept.refl _
  · intro x hx
    refine ⟨x, ?_, rfl, .inl rfl⟩
    show x ∈ insertMissing _ _ _ _ _ _
    unfold insertMissing
    refine List.mem_flatMap.mpr ⟨x, hx, ?_⟩
    split
    · split
      · exact .head _
      · exact List.mem_append_right _ (.head _)
    · exact .head _

theorem withoutSei_kept' (s : Legacy) : (s.withoutSei.andThen fun s ok => Res.ok s ((ok, -1, -1) : Bool × Int × Int)).Ends fun t => Kept s.list t.list :=
  Res.Ends.andThen' (withoutSei_kept s) fun _ _ _ h => h

theorem withHashList_kept (s : Legacy) (hv : s.v.verified ≠ 1) : s.withHashList.Ends fun t => Kept s.list t.list := by
  unfold withHashList
  split
  · trivial
  · split
    · exact Kept.refl _
    · split
      · rename_i sei _ _
        have h0 : Kept s.list (s.list.set sei.1 fun i => { i with status := if s.v.verified = 0 then .N else .E }) :=
          Kept.set fun i => by
            dsimp only
            split
            · exact .inr (.inl rfl)
            · exact .inr (.inr rfl)
        exact (withoutSei_kept' _).mono fun t h => h0.trans h
      · exact trivial

theorem withGopHash_kept (s : Legacy) (hv : s.v.verified ≠ 1) : s.withGopHash.Ends fun t => Kept s.list t.list := by
  unfold withGopHash
  split
  · have h0 : Kept s.list (setStatus .N s.list) := by
      unfold setStatus
      refine Kept.map (fun _ => rfl) fun x => ?_
      dsimp only
      split
      · unfold settle
        split
        · exact .inl rfl
        · dsimp only
          split
          · exact .inr (.inl rfl)
          · exact .inr (.inl rfl)
      · exact .inl rfl
    dsimp only
    split
    · exact h0
    · split
      · exact h0
      · split
        · trivial
        · exact h0.trans (addMissing_kept { s with list := setStatus .N s.list } _ _ _)
  · exact withoutSei_kept' _

/-- Without a correct signature, or if the SEI is not the expected one, NAL units keep their status or are found invalid. -/
theorem verifyGop_kept (s : Legacy) (hv : ¬(s.v.verified = 1 ∧ (s.v.gop.lost && !s.v.gop.transLost) = false)) :
    s.verifyGop.Ends fun t => Kept s.list t.list := by
  unfold verifyGop
  split
  · have h0 : Kept s.list (clearUsed s.list) := Kept.map (fun _ => rfl) fun _ => .inl rfl
    exact (withoutSei_kept' _).mono fun t h => h0.trans h
  · rename_i hl
    have hv' : s.v.verified ≠ 1 := fun e => hv ⟨e, by simpa using hl⟩
    split
    · exact withHashList_kept s hv'
    · exact withGopHash_kept s hv'

theorem conclude_good {t : Legacy} {p : Bool × Int × Int}
    (h : (t.conclude p).v.rep.latest.auth = .ok ∨ (t.conclude p).v.rep.latest.auth = .okWithMissing) :
    (∀ y ∈ t.list, y.2.status ≠ .N ∧ y.2.status ≠ .E) ∧ (t.conclude p).list = t.list ∧ t.v.rep.latest.keyChanged = false := by
  have e : (t.conclude p).v.rep.latest.auth = (if t.v.rep.latest.keyChanged then .notOk else
      (if (t.v.flags.first && decide (verdict (getStats t.list) t.v.flags.first p ≠ .ok)) then .signaturePresent
        else verdict (getStats t.list) t.v.flags.first p)) := rfl
  rw [e] at h
  generalize hk : t.v.rep.latest.keyChanged = kc at h
  generalize hr : (t.v.flags.first && decide (verdict (getStats t.list) t.v.flags.first p ≠ .ok)) = retry at h
  cases kc with
  | true => simp at h
  | false =>
    cases retry with
    | true => simp at h
    | false =>
      simp only [Bool.false_eq_true, if_false] at h
      refine ⟨?_, ?_, rfl⟩
      · intro y hy
        have key : y.2.status = .N ∨ y.2.status = .E → False := by
          intro hs
          have hi : (getStats t.list).invalid > 0 := by
            unfold getStats
            dsimp only
            apply List.length_pos_of_mem (a := y)
            rw [List.mem_filter]
            exact ⟨hy, by rcases hs with hs | hs <;> rw [hs] <;> rfl⟩
          have : verdict (getStats t.list) t.v.flags.first p = .notOk := by
            unfold verdict judge
            dsimp only
            rw [if_pos hi]
            simp
          rw [this] at h
          rcases h with h | h <;> cases h
        exact ⟨fun h => key (.inl h), fun h => key (.inr h)⟩
      · show (if (t.v.flags.first && decide (verdict (getStats t.list) t.v.flags.first p ≠ .ok)) = true then _ else _) = _
        rw [hr]; rfl

theorem renew_status (l : LList) : ∀ x ∈ l, ∃ y ∈ renew l, y.1 = x.1 ∧ y.2.status = x.2.status := by
  induction l with
  | nil => intro x hx; cases hx
  | cons z r ih =>
    intro x hx
    unfold renew
    split
    · rcases List.mem_cons.1 hx with rfl | hx
      · exact ⟨_, .head _, rfl, rfl⟩
      · exact ⟨x, .tail _ hx, rfl, rfl⟩
    · rcases List.mem_cons.1 hx with rfl | hx
      · exact ⟨x, .head _, rfl, rfl⟩
      · obtain ⟨y, hy, h⟩ := ih x hx
        exact ⟨y, .tail _ hy, h⟩

theorem finish_status (s : Legacy) : ∀ x ∈ s.list, ∃ y ∈ s.finish.list, y.1 = x.1 ∧ y.2.status = x.2.status := by
  intro x hx
  show ∃ y ∈ (if s.v.flags.resetFirst then renew s.list else s.list), _
  split
  · exact renew_status _ x hx
  · exact ⟨x, hx, rfl, rfl⟩

/-- The items without the two flags that are written when a validation is prepared. -/
def bare (l : LList) : LList := l.map fun x => (x.1, { x.2 with decoded := false, used := false })

theorem bare_cons (x : Nat × LItem) (l : LList) : bare (x :: l) = (x.1, { x.2 with decoded := false, used := false }) :: bare l := rfl

theorem bare_set {l : LList} {a : Nat} {f : LItem → LItem}
    (h : ∀ i, ({ f i with decoded := false, used := false } : LItem) = { i with decoded := false, used := false }) : bare (l.set a f) = bare l := by
  unfold bare LList.set
  rw [List.map_map]
  apply List.map_congr_left
  intro x _
  show (_, _) = _
  by_cases hx : x.1 = a
  · simp only [Function.comp, hx, if_true]
    rw [h]
  · simp only [Function.comp, hx, if_false]

theorem bare_status {l l' : LList} (h : bare l' = bare l) : ∀ x ∈ l, ∃ y ∈ l', y.1 = x.1 ∧ y.2.status = x.2.status := by
  intro x hx
  have h1 : (x.1, ({ x.2 with decoded := false, used := false } : LItem)) ∈ bare l := List.mem_map_of_mem (f := fun (x : Nat × LItem) => (x.1, ({ x.2 with decoded := false, used := false } : LItem))) hx
  rw [← h] at h1
  obtain ⟨y, hy, e⟩ := List.mem_map.1 h1
  have e1 := congrArg (fun (z : Nat × LItem) => z.1) e
  have e2 := congrArg (fun (z : Nat × LItem) => z.2.status) e
  exact ⟨y, hy, e1, e2⟩

theorem gopLoop_bare {env : AuthEnv} {v : Validator} {sei : Nat} {l : LList} {prev : Option Nat} {b : Bytes} {p : LList × Bytes}
    (h : gopLoop env v sei l prev b = .ok p) : bare p.1 = bare l := by
  induction l generalizing prev b p with
  | nil => unfold gopLoop at h; cases h; rfl
  | cons x r ih =>
    unfold gopLoop at h
    split at h
    · cases hr : gopLoop env v sei r (some x.1) b with
      | err e => rw [hr] at h; cases h
      | ub u => rw [hr] at h; cases h
      | ok q => rw [hr] at h; cases h; show bare (x :: q.1) = _; rw [bare_cons, bare_cons, ih hr]
    · split at h
      · cases h
      · dsimp only at h
        split at h
        · split at h
          · cases h; rfl
          · cases hr : gopLoop env v sei r (some x.1) b with
            | err e => rw [hr] at h; cases h
            | ub u => rw [hr] at h; cases h
            | ok q => rw [hr] at h; cases h; show bare (x :: q.1) = _; rw [bare_cons, bare_cons, ih hr]
        · split at h
          · cases h
          · rename_i h' _
            cases hg : gopStep env v b h' with
            | err e => rw [hg] at h; cases h
            | ub u => rw [hg] at h; cases h
            | ok g =>
              rw [hg] at h
              dsimp only [bind, Out.bind] at h
              split at h
              · cases h; rfl
              · generalize hr : gopLoop env v sei r (some x.1) g = t at h
                cases t with
                | err e => cases h
                | ub u => cases h
                | ok q =>
                  cases h
                  show bare ((x.1, { x.2 with used := true }) :: q.1) = _
                  rw [bare_cons, bare_cons, ih hr]

theorem computeGop_bare (env : AuthEnv) (s : Legacy) (sei : Nat × LItem) :
    (s.computeGop env sei).Ends fun t => bare t.list = bare s.list := by
  unfold computeGop
  dsimp only
  split
  · trivial
  · show bare (clearUsed s.list) = _
    unfold clearUsed bare
    rw [List.map_map]
    rfl
  · rename_i l b h
    cases h1 : resetGopHash env s.v s.hashes with
    | err e => rw [h1] at h; cases h
    | ub u => rw [h1] at h; cases h
    | ok b1 =>
      rw [h1] at h
      dsimp only [bind, Out.bind] at h
      cases h2 : gopLoop env s.v sei.1 s.list none b1 with
      | err e => rw [h2] at h; cases h
      | ub u => rw [h2] at h; cases h
      | ok q =>
        rw [h2] at h
        dsimp only [bind, Out.bind] at h
        cases h3 : gopStep env s.v q.2 sei.2.hash with
        | err e => rw [h3] at h; cases h
        | ub u => rw [h3] at h; cases h
        | ok b3 =>
          rw [h3] at h
          cases h
          show bare (q.1.set sei.1 fun i => { i with used := true }) = _
          rw [bare_set (f := fun i => { i with used := true }) (fun i => rfl), gopLoop_bare h2]

theorem decodeNext_bare (env : AuthEnv) (s : Legacy) (x : Nat × LItem) : (s.decodeNext env x).Ends fun t => bare t.list = bare s.list := by
  unfold decodeNext
  split
  · rfl
  · dsimp only
    split
    · trivial
    · refine Res.Ends.andThen (decodeSei_list env s _ _) (fun t h => h ▸ rfl) (fun t _ _ h => ?_)
      have hq : bare (t.list.set x.1 fun i => { i with decoded := true }) = bare s.list := by
        rw [bare_set (f := fun i => { i with decoded := true }) (fun i => rfl), h]
      split
      · split
        · trivial
        · exact hq
      · exact hq

/-- Preparing a validation writes only two flags of the items. -/
theorem prepare_bare (env : AuthEnv) (s : Legacy) : (s.prepare env).Ends fun t => bare t.list = bare s.list := by
  rw [prepare_eq]
  refine Res.Ends.andThen' (P := fun t : Legacy => bare t.list = bare s.list) ?_ (fun t _ _ h => ?_)
  · unfold readNext
    split
    · rfl
    · refine Res.Ends.andThen' (decodeNext_bare env s _) (fun t _ _ h => ?_)
      unfold hashNext
      split
      · refine Res.Ends.andThen' ((computeGop_bare env t _).mono fun w g => g.trans h) (fun w _ _ g => ?_)
        split
        · trivial
        · exact g
      · exact h
  · have hv : (t.verifyHash env).Ends fun w => bare w.list = bare s.list := by
      unfold verifyHash
      exact (onV_list _ _).mono fun w e => e ▸ h
    unfold checkNext
    split
    · exact h
    · split
      · exact hv
      · split
        · trivial
        · split
          · trivial
          · split
            · exact hv
            · exact h

/-- A round with a good verdict has verified a correct signature, or has not changed the status of any NAL unit. -/
theorem round_good {env : AuthEnv} {s t : Legacy} (hi : s.Idle) (h : s.round env = .ok t ())
    (hg : t.v.rep.latest.auth = .ok ∨ t.v.rep.latest.auth = .okWithMissing) :
    ∃ u, s.begin.prepare env = .ok u () ∧
      ((u.v.verified = 1 ∧ (u.v.gop.lost && !u.v.gop.transLost) = false ∧
          ∃ k, u.v.key = some k ∧ env.verify k u.v.d.signature (buf u.v.d.hashSize u.v.sigHash) = 1) ∨
        ∀ x ∈ s.list, ∃ y ∈ t.list, y.1 = x.1 ∧ y.2.status = x.2.status) := by
  unfold round at h
  obtain ⟨u, _, h1, h2⟩ := Res.andThen_eq_ok h
  obtain ⟨w, _, h3, h4⟩ := Res.andThen_eq_ok h2
  cases h4
  refine ⟨u, h1, ?_⟩
  by_cases hv : u.v.verified = 1 ∧ (u.v.gop.lost && !u.v.gop.transLost) = false
  · refine .inl ⟨hv.1, hv.2, ?_⟩
    rcases prepare_verified h1 hv.1 with e | e
    · exact absurd e hi
    · exact e
  · right
    unfold conduct at h3
    split at h3
    · unfold validate at h3
      obtain ⟨x, p, h5, h6⟩ := Res.andThen_eq_ok h3
      cases h6
      obtain ⟨g1, g2, -⟩ := conclude_good hg
      have hk : Kept u.list x.list := (verifyGop_kept u hv).of_ok h5
      have hb : bare u.list = bare s.list := (prepare_bare env s.begin).of_ok h1
      intro z hz
      obtain ⟨a, ha, e1, e2⟩ := bare_status hb z hz
      obtain ⟨b, hb, e3, e4⟩ := hk a ha
      have e5 : b.2.status = a.2.status := by
        rcases e4 with e | e | e
        · exact e
        · exact absurd e (g1 b hb).1
        · exact absurd e (g1 b hb).2
      obtain ⟨c, hc, e6, e7⟩ := finish_status (x.conclude p) b (by rw [g2]; exact hb)
      exact ⟨c, hc, e6.trans (e3.trans e1), e7.trans (e5.trans e2)⟩
    · cases h3
      rcases hg with e | e <;> cases e

/-- The states in which the rounds of a loop start. -/
inductive Steps (env : AuthEnv) : Legacy → Legacy → Prop
  | zero (s : Legacy) : Steps env s s
  | succ {s t u : Legacy} : s.hasPending.2 = true → s.hasPending.1.round env = .ok t () → t.v.flags.signing = true → Steps env t u →
      Steps env s u

/-- The verdict at the end of a loop is that of its last round. -/
theorem rounds_last {env : AuthEnv} (k : Nat) {s t : Legacy} (hi : s.Idle) (h : s.rounds env k = .ok t ()) :
    (s.hasPending.2 = false ∧ t = s.hasPending.1) ∨
    ∃ a b, Steps env s a ∧ a.Idle ∧ a.hasPending.2 = true ∧ a.hasPending.1.round env = .ok b () ∧ t = b.hasPending.1 ∧
      (b.v.flags.signing = true → b.hasPending.2 = false) := by
  induction k generalizing s with
  | zero => cases h
  | succ k ih =>
    unfold rounds at h
    split at h
    · rename_i hp
      obtain ⟨b, _, h1, h2⟩ := Res.andThen_eq_ok h
      obtain ⟨_, _, _, g⟩ := round_made (s := s.hasPending.1) hi h1
      have hb : b.Idle := by intro e; rw [g] at e; cases e
      split at h2
      · rename_i hs
        rcases ih hb h2 with ⟨e1, e2⟩ | ⟨a, c, e1, e2, e3, e4, e5⟩
        · exact .inr ⟨s, b, .zero s, hi, hp, h1, e2, fun _ => e1⟩
        · exact .inr ⟨a, c, .succ hp h1 hs e1, e2, e3, e4, e5⟩
      · rename_i hs
        cases h2
        exact .inr ⟨s, b, .zero s, hi, hp, h1, rfl, fun e => absurd e hs⟩
    · rename_i hp
      cases h
      exact .inl ⟨by simpa using hp, rfl⟩

theorem register_prep (env : AuthEnv) (s : Legacy) (a : Nat) (n : Nalu) :
    (s.register env a n).Ends fun t => t.v.flags = s.v.flags := by
  unfold register
  split
  · trivial
  · split
    · rfl
    · split
      · trivial
      · rfl
      · rename_i m hm
        refine (hashItem_frame env _ a m).mono fun t h => ?_
        obtain ⟨b, r, f, rfl, hf⟩ := h
        rfl

/-- What a call that ends well has done: it has handed the NAL unit to the loop, or not entered it. -/
theorem addH26x_rounds {env : AuthEnv} {s t : Legacy} {data : Bytes} (h : s.addH26x env data = .ok t ()) :
    (∃ v w, s.atLoop env data = some v ∧ v.v.flags.hasAuth = false ∧ v.rounds env env.rounds = .ok w () ∧ t.v = w.v) ∨
    (s.atLoop env data = none ∧ (t.v.flags.hasAuth = false ∨ t.v.rep.latest.auth = .signaturePresent)) := by
  unfold addH26x at h
  split at h
  · cases h
  · rename_i hd
    split at h
    · cases h
    · cases h
    · rename_i n hp
      dsimp only at h
      split at h
      · cases h
      · rename_i w e hb
        unfold addEnd at h
        obtain ⟨x, e2, h1, h2⟩ := Res.andThen_eq_ok h
        dsimp only at h2
        cases h2
      · rename_i w _ hb
        have ht : t.v = w.v := ((addEnd_quiet w s.brk none).of_ok h).2
        rw [ht]
        clear h ht
        unfold addBody at hb
        dsimp only at hb
        unfold atLoop
        rw [if_neg hd, hp]
        dsimp only
        split at hb
        · cases hb
        · rename_i hn
          rw [if_neg hn]
          obtain ⟨x, _, h1, h2⟩ := Res.andThen_eq_ok hb
          rw [h1]
          have hx := (register_prep env _ _ _).of_ok h1
          dsimp only
          unfold maybeValidate at h2
          split at h2
          · cases h2
          · cases h2
          · rename_i f hf
            rw [hf]
            dsimp only
            obtain ⟨y, ok, h3, h4⟩ := Res.andThen_eq_ok h2
            rw [h3]
            dsimp only
            have hy := ((recurrentDecoded_frame env x).of_ok h3).2
            have hya : y.v.flags.hasAuth = false := by rw [hy.flags, hx]
            split at h4
            · rename_i hfo
              right
              refine ⟨if_neg fun hc => ?_, ?_⟩
              · rw [hc.1] at hfo; cases hfo
              · cases h4
                split
                · exact .inr rfl
                · exact .inl hya
            · rename_i hfo
              split at h4
              · cases h4
              · rename_i hdd
                left
                refine ⟨y, w, if_pos ⟨by simpa using hfo, by simpa using hdd⟩, hya, h4, rfl⟩

theorem atLoop_idle {env : AuthEnv} {s v : Legacy} {data : Bytes} (h : s.atLoop env data = some v) : v.v.verified = s.v.verified := by
  unfold atLoop at h
  split at h
  · cases h
  · split at h
    · dsimp only at h
      split at h
      · cases h
      · split at h
        · rename_i x _ h1
          have hx := ((register_quiet env _ _ _).of_ok h1).2
          split at h
          · split at h
            · rename_i y ok h2
              have hy := ((recurrentDecoded_frame env x).of_ok h2).2.verified
              split at h
              · cases h; rw [hy, hx]
              · cases h
            · cases h
          · cases h
        · cases h
    · cases h

end Legacy
end SV
