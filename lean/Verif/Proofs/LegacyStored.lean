import Verif.Proofs.LegacyTied
import Verif.Proofs.AuthContent
/-! The hashes that the items of a session for the older format have. -/
namespace SV
namespace Legacy
open Validator Spec

/-- What is decoded of a NAL unit. -/
def face (n : Nalu) : Bool × Nat × Bytes := (n.gopSei, n.tlvSize, n.tlvMem.take n.tlvSize)

/-- The hashes are the same, and so is the NAL unit if it is still there. An item is not made pending. -/
structure Same (i j : LItem) : Prop where
  hash : j.hash = i.hash
  second : j.second = i.second
  nalu : ∀ m, j.nalu = some m → ∃ n, i.nalu = some n ∧ face m = face n
  pend : j.status = .P → i.status = .P

theorem Same.refl (i : LItem) : Same i i := ⟨rfl, rfl, fun m h => ⟨m, h, rfl⟩, id⟩

theorem Same.of_eq {i j : LItem} (h1 : j.hash = i.hash) (h2 : j.second = i.second) (h3 : j.nalu = i.nalu)
    (h4 : j.status = .P → i.status = .P := by first | exact id | exact nofun) : Same i j :=
  ⟨h1, h2, fun m h => ⟨m, h3 ▸ h, rfl⟩, h4⟩

theorem Same.trans {i j k : LItem} (h : Same i j) (g : Same j k) : Same i k :=
  ⟨g.hash.trans h.hash, g.second.trans h.second, fun m hm => by
    obtain ⟨n, h1, h2⟩ := g.nalu m hm
    obtain ⟨n', h3, h4⟩ := h.nalu n h1
    exact ⟨n', h3, h2.trans h4⟩, fun e => h.pend (g.pend e)⟩

/-- There is no NAL unit. -/
def Blank (i : LItem) : Prop := i.hash = [] ∧ i.second = none ∧ i.nalu = none ∧ i.status ≠ .P

theorem Same.blank {i j : LItem} (h : Same i j) (hb : Blank i) : Blank j := by
  refine ⟨h.hash.trans hb.1, h.second.trans hb.2.1, ?_, fun e => hb.2.2.2 (h.pend e)⟩
  cases e : j.nalu with
  | none => rfl
  | some m => obtain ⟨n, h1, -⟩ := h.nalu m e; rw [hb.2.2.1] at h1; cases h1

/-- The items come from those of another list. -/
def From (l l' : LList) : Prop := ∀ y ∈ l', (∃ x ∈ l, x.1 = y.1 ∧ Same x.2 y.2) ∨ Blank y.2

theorem From.refl (l : LList) : From l l := fun y hy => .inl ⟨y, hy, rfl, Same.refl _⟩

theorem From.trans {l m n : LList} (h : From l m) (g : From m n) : From l n := by
  intro y hy
  rcases g y hy with ⟨x, hx, e, hs⟩ | hb
  · rcases h x hx with ⟨z, hz, e', hs'⟩ | hb
    · exact .inl ⟨z, hz, e'.trans e, hs'.trans hs⟩
    · exact .inr (hs.blank hb)
  · exact .inr hb

theorem From.map {l : LList} {f : Nat × LItem → Nat × LItem} (h : ∀ x, (f x).1 = x.1 ∧ Same x.2 (f x).2) : From l (l.map f) := by
  intro y hy
  obtain ⟨x, hx, rfl⟩ := List.mem_map.1 hy
  exact .inl ⟨x, hx, (h x).1.symm, (h x).2⟩

theorem From.set {l : LList} {a : Nat} {f : LItem → LItem} (h : ∀ i, Same i (f i)) : From l (l.set a f) := by
  unfold LList.set
  refine From.map fun x => ?_
  split
  · exact ⟨rfl, h _⟩
  · exact ⟨rfl, Same.refl _⟩

theorem From.of_subset {l l' : LList} (h : ∀ y ∈ l', y ∈ l) : From l l' := fun y hy => .inl ⟨y, h y hy, rfl, Same.refl _⟩

theorem From.tail {x : Nat × LItem} {l l' : LList} (h : From l l') : From (x :: l) l' := fun y hy => by
  rcases h y hy with ⟨z, hz, e⟩ | hb
  · exact .inl ⟨z, .tail _ hz, e⟩
  · exact .inr hb

theorem From.cons {x y : Nat × LItem} {l l' : LList} (h : From l l') (e : y.1 = x.1) (hs : Same x.2 y.2) : From (x :: l) (y :: l') := by
  intro z hz
  rcases List.mem_cons.1 hz with rfl | hz
  · exact .inl ⟨x, .head _, e.symm, hs⟩
  · exact h.tail z hz

theorem From.missing {l l' : LList} (h : From l l') (new : List Nat) : From l (new.map (fun a => (a, LItem.missing)) ++ l') := by
  intro y hy
  rcases List.mem_append.1 hy with hy | hy
  · obtain ⟨a, -, rfl⟩ := List.mem_map.1 hy; exact .inr ⟨rfl, rfl, rfl, nofun⟩
  · exact h y hy

theorem addMissing_from (s : Legacy) (n : Int) (app : Bool) (item : Nat) : From s.list (s.addMissing n app item).list := by
  unfold addMissing
  split
  · exact From.refl _
  · intro y hy
    rcases mem_insertMissing hy with h | h
    · exact .inl ⟨y, h, rfl, Same.refl _⟩
    · rw [h]; exact .inr ⟨rfl, rfl, rfl, nofun⟩

theorem removeMissingFrom_from (l : LList) (b p d : Bool) : From l (removeMissingFrom l b p d) := by
  induction l generalizing b p d with
  | nil => exact From.refl _
  | cons x r ih =>
    unfold removeMissingFrom
    split
    · exact From.refl _
    · dsimp only
      split
      · exact (ih _ _ _).tail
      · refine From.cons (ih _ _ _) rfl ?_
        split
        · exact Same.of_eq rfl rfl rfl
        · exact Same.of_eq rfl rfl rfl

theorem clearUsed_from (l : LList) : From l (clearUsed l) := From.map fun _ => ⟨rfl, Same.of_eq rfl rfl rfl⟩

theorem renew_from (l : LList) : From l (renew l) := by
  induction l with
  | nil => exact From.refl _
  | cons x r ih =>
    unfold renew
    split
    · exact From.cons (From.refl _) rfl (Same.of_eq rfl rfl rfl)
    · exact From.cons ih rfl (Same.refl _)

theorem gopLoop_from {env : AuthEnv} {v : Validator} {sei : Nat} {l : LList} {prev : Option Nat} {b : Bytes} {p : LList × Bytes}
    (h : gopLoop env v sei l prev b = .ok p) : From l p.1 := by
  induction l generalizing prev b p with
  | nil => unfold gopLoop at h; cases h; exact From.refl _
  | cons x r ih =>
    unfold gopLoop at h
    split at h
    · cases hr : gopLoop env v sei r (some x.1) b with
      | err e => rw [hr] at h; cases h
      | ub u => rw [hr] at h; cases h
      | ok q => rw [hr] at h; cases h; exact From.cons (ih hr) rfl (Same.refl _)
    · split at h
      · cases h
      · dsimp only at h
        split at h
        · split at h
          · cases h; exact From.refl _
          · cases hr : gopLoop env v sei r (some x.1) b with
            | err e => rw [hr] at h; cases h
            | ub u => rw [hr] at h; cases h
            | ok q => rw [hr] at h; cases h; exact From.cons (ih hr) rfl (Same.refl _)
        · split at h
          · cases h
          · rename_i h' _
            cases hg : gopStep env v b h' with
            | err e => rw [hg] at h; cases h
            | ub u => rw [hg] at h; cases h
            | ok g =>
              rw [hg] at h
              dsimp only [bind, Out.bind] at h
              split at h
              · cases h; exact From.cons (From.refl _) rfl (Same.of_eq rfl rfl rfl)
              · generalize hr : gopLoop env v sei r (some x.1) g = t at h
                cases t with
                | err e => cases h
                | ub u => cases h
                | ok q => cases h; exact From.cons (ih hr) rfl (Same.of_eq rfl rfl rfl)

theorem markLoop_from {l : LList} {p : LList × Nat × Bool} (h : markLoop l = .ok p) : From l p.1 := by
  induction l generalizing p with
  | nil => unfold markLoop at h; cases h; exact From.refl _
  | cons x r ih =>
    unfold markLoop at h
    split at h
    · cases hr : markLoop r with
      | err e => rw [hr] at h; cases h
      | ub u => rw [hr] at h; cases h
      | ok q => rw [hr] at h; cases h; exact From.cons (ih hr) rfl (Same.refl _)
    · split at h
      · cases h
      · split at h
        · cases h; exact From.cons (From.refl _) rfl (Same.of_eq rfl rfl rfl)
        · cases hr : markLoop r with
          | err e => rw [hr] at h; cases h
          | ub u => rw [hr] at h; cases h
          | ok q => rw [hr] at h; cases h; exact From.cons (ih hr) rfl (Same.of_eq rfl rfl rfl)

theorem matched_same (i : LItem) (f : Bool) : Same i (matched i f) := by
  unfold matched
  split
  · exact Same.of_eq rfl rfl rfl
  · refine Same.of_eq rfl rfl rfl ?_
    dsimp only
    split <;> exact nofun

theorem unmatched_same (i : LItem) : Same i (unmatched i) := by
  unfold unmatched
  split <;> exact Same.of_eq rfl rfl rfl

theorem hashListLoop_from {hs : Nat} {hashes : List Bytes} {sei : Nat} {l : LList} {prev : Option Nat} {m : Match} {p : LList × Match}
    (h : hashListLoop hs hashes sei l prev m = .ok p) : From l p.1 := by
  induction l generalizing prev m p with
  | nil => unfold hashListLoop at h; cases h; exact From.refl _
  | cons x r ih =>
    unfold hashListLoop at h
    split at h
    · generalize hr : hashListLoop _ _ _ r _ _ = t at h
      cases t with
      | err e => cases h
      | ub u => cases h
      | ok q => cases h; exact From.cons (ih hr) rfl (Same.refl _)
    · split at h
      · cases h
      · dsimp only at h
        split at h
        · split at h
          · cases h; exact From.refl _
          · generalize hr : hashListLoop _ _ _ r _ _ = t at h
            cases t with
            | err e => cases h
            | ub u => cases h
            | ok q => cases h; exact From.cons (ih hr) rfl (Same.refl _)
        · split at h
          · cases h
          · have key : ∀ (b f : Bool), Same x.2 (if b = true then matched x.2 f else unmatched x.2) := by
              intro b f
              cases b
              · exact unmatched_same _
              · exact matched_same _ _
            split at h
            · cases h
              refine From.missing ?_ _
              exact From.cons (x := x) (From.refl _) rfl (key _ _)
            · generalize hr : hashListLoop _ _ _ r _ _ = t at h
              cases t with
              | err e => cases h
              | ub u => cases h
              | ok q =>
                cases h
                refine From.missing ?_ _
                exact From.cons (x := x) (ih hr) rfl (key _ _)

/-- The list comes from another one, and what the next hash depends on is the same. -/
structure Shadow (s t : Legacy) : Prop where
  list : From s.list t.list
  buddies : t.v.buddies = s.v.buddies
  codec : t.v.codec = s.v.codec

theorem Shadow.refl (s : Legacy) : Shadow s s := ⟨From.refl _, rfl, rfl⟩

theorem Shadow.trans {s t u : Legacy} (h : Shadow s t) (g : Shadow t u) : Shadow s u :=
  ⟨h.list.trans g.list, g.buddies.trans h.buddies, g.codec.trans h.codec⟩

theorem Shadow.of_decoded {s t : Legacy} (h : t = { s with v := t.v } ∧ Decoded s.v t.v) : Shadow s t :=
  ⟨by rw [h.1]; exact From.refl _, h.2.buddies, h.2.codec⟩

theorem withoutSei_shadow (s : Legacy) : s.withoutSei.Ends (Shadow s) := by
  unfold withoutSei
  split
  · trivial
  · exact Shadow.refl _
  · rename_i l k f h
    refine ⟨markLoop_from (p := (l, k, f)) h, ?_, ?_⟩
    · dsimp only; split <;> rfl
    · dsimp only; split <;> rfl

theorem addMissing_shadow (s : Legacy) (n : Int) (app : Bool) (item : Nat) : Shadow s (s.addMissing n app item) := by
  refine ⟨addMissing_from s n app item, ?_, ?_⟩ <;> (unfold addMissing; split <;> rfl)

theorem set_shadow {s : Legacy} {a : Nat} {f : LItem → LItem} (h : ∀ i, Same i (f i)) : Shadow s { s with list := s.list.set a f } :=
  ⟨From.set h, rfl, rfl⟩

theorem hashListEnd_shadow (s : Legacy) (m : Match) (n : Int) (sei : Nat) : Shadow s (hashListEnd s m n sei).1 := by
  unfold hashListEnd
  dsimp only
  have h1 : Shadow s (if m.latest = -1 then
      match s.list with
      | [] => s
      | f :: _ => s.addMissing (n - m.invalid) (f.2.second.isSome && !f.2.need) f.1
    else s) := by
    split
    · split
      · exact Shadow.refl _
      · exact addMissing_shadow _ _ _ _
    · exact Shadow.refl _
  generalize (if m.latest = -1 then
      match s.list with
      | [] => s
      | f :: _ => s.addMissing (n - m.invalid) (f.2.second.isSome && !f.2.need) f.1
    else s) = t at h1
  refine h1.trans (Shadow.trans ?_ (set_shadow (f := fun i => { i with status := .ok }) fun i => Same.of_eq rfl rfl rfl))
  split
  · exact Shadow.refl _
  · split
    · exact set_shadow (f := fun i => { i with bad := true, need := true }) fun i => Same.of_eq rfl rfl rfl
    · exact addMissing_shadow _ _ _ _

theorem withHashList_shadow (u : Legacy) : u.withHashList.Ends (Shadow u) := by
  unfold withHashList
  split
  · trivial
  · split
    · exact Shadow.refl _
    · rename_i sei hsei
      split
      · have h0 : Shadow u { u with list := u.list.set sei.1 fun i => { i with status := if u.v.verified = 0 then .N else .E } } :=
          set_shadow fun i => Same.of_eq rfl rfl rfl (by dsimp only; split <;> exact nofun)
        exact Res.Ends.andThen (withoutSei_shadow _) (fun t h => h0.trans h) (fun t b _ h => h0.trans h)
      · split
        · trivial
        · dsimp only
          split
          · trivial
          · exact Shadow.refl _
          · rename_i l m hl
            have h0 : Shadow u { u with list := l, brk := m.brk } := ⟨hashListLoop_from (p := (l, m)) hl, rfl, rfl⟩
            exact h0.trans (hashListEnd_shadow _ _ _ _)

theorem setStatus_from {st : Status} (hst : st ≠ .P) (l : LList) : From l (setStatus st l) := by
  unfold setStatus
  refine From.map fun x => ⟨rfl, ?_⟩
  dsimp only
  split
  · unfold settle
    split
    · exact Same.of_eq rfl rfl rfl
    · refine Same.of_eq rfl rfl rfl ?_
      dsimp only
      split
      · exact nofun
      · exact fun e => absurd e hst
  · exact Same.of_eq rfl rfl rfl

theorem withGopHash_shadow (u : Legacy) : u.withGopHash.Ends (Shadow u) := by
  unfold withGopHash
  split
  · have h : Shadow u { u with list := setStatus (if u.v.verified = 1 then .ok else .N) u.list } := ⟨setStatus_from (by split <;> exact nofun) _, rfl, rfl⟩
    dsimp only
    split
    · exact h
    · split
      · exact h
      · split
        · trivial
        · exact h.trans (addMissing_shadow _ _ _ _)
  · exact Res.Ends.andThen (withoutSei_shadow u) (fun t h => h) (fun t b _ h => h)

theorem verifyGop_shadow (u : Legacy) : u.verifyGop.Ends (Shadow u) := by
  unfold verifyGop
  split
  · have h0 : Shadow u { u with list := clearUsed u.list } := ⟨clearUsed_from _, rfl, rfl⟩
    exact Res.Ends.andThen (withoutSei_shadow _) (fun t h => h0.trans h) (fun t b _ h => h0.trans h)
  · split
    · exact withHashList_shadow u
    · exact withGopHash_shadow u

theorem conclude_shadow (s : Legacy) (p : Bool × Int × Int) : Shadow s (s.conclude p) := by
  refine ⟨?_, rfl, rfl⟩
  unfold conclude
  dsimp only
  split
  · exact removeMissingFrom_from _ _ _ _
  · exact From.refl _

theorem finish_shadow (s : Legacy) : Shadow s s.finish := by
  refine ⟨?_, rfl, rfl⟩
  unfold finish
  dsimp only
  split
  · exact renew_from _
  · exact From.refl _

theorem decodeSei_shadow (env : AuthEnv) (s : Legacy) (mem : Bytes) (size : Nat) : (s.decodeSei env mem size).Ends (Shadow s) := by
  unfold decodeSei
  split
  · trivial
  · refine Res.Ends.andThen' ((onV_ends s (tlvDecode_decoded env s.v mem size)).mono fun t h => Shadow.of_decoded h) (fun t _ _ h => ?_)
    exact ⟨h.list, h.buddies, h.codec⟩

theorem decodeNext_shadow (env : AuthEnv) (s : Legacy) (x : Nat × LItem) : (s.decodeNext env x).Ends (Shadow s) := by
  unfold decodeNext
  split
  · exact Shadow.refl _
  · dsimp only
    split
    · trivial
    · refine Res.Ends.andThen' (decodeSei_shadow env s _ _) (fun t _ _ h => ?_)
      have hq : Shadow s { t with list := t.list.set x.1 fun i => { i with decoded := true } } :=
        h.trans (set_shadow (f := fun i => { i with decoded := true }) fun i => Same.of_eq rfl rfl rfl)
      split
      · split
        · trivial
        · exact ⟨hq.list, hq.buddies, hq.codec⟩
      · exact hq

theorem computeGop_shadow (env : AuthEnv) (s : Legacy) (sei : Nat × LItem) : (s.computeGop env sei).Ends (Shadow s) := by
  unfold computeGop
  dsimp only
  split
  · trivial
  · exact ⟨clearUsed_from _, rfl, rfl⟩
  · rename_i l b h
    obtain ⟨b1, _, h⟩ := Out.bind_eq_ok h
    obtain ⟨q, h2, h⟩ := Out.bind_eq_ok h
    obtain ⟨b3, _, h⟩ := Out.bind_eq_ok h
    cases h
    exact ⟨(gopLoop_from h2).trans (From.set (f := fun i => { i with used := true }) fun i => Same.of_eq rfl rfl rfl), rfl, rfl⟩

theorem hashNext_shadow (env : AuthEnv) (s : Legacy) (x : Nat × LItem) (hs : Nat) : (s.hashNext env x hs).Ends (Shadow s) := by
  unfold hashNext
  split
  · refine Res.Ends.andThen' (computeGop_shadow env s x) (fun t _ _ h => ?_)
    split
    · trivial
    · exact ⟨h.list, h.buddies, h.codec⟩
  · exact Shadow.refl _

theorem verifyHash_shadow (env : AuthEnv) (s : Legacy) : (s.verifyHash env).Ends (Shadow s) := by
  unfold verifyHash Validator.verifyHash
  split
  · exact ⟨From.refl _, rfl, rfl⟩
  · split
    · exact ⟨From.refl _, rfl, rfl⟩
    · exact ⟨From.refl _, rfl, rfl⟩

theorem prepare_shadow (env : AuthEnv) (s : Legacy) : (s.prepare env).Ends (Shadow s) := by
  rw [prepare_eq]
  refine Res.Ends.andThen' (P := Shadow s) ?_ (fun t _ _ h => ?_)
  · unfold readNext
    split
    · exact Shadow.refl _
    · exact Res.Ends.andThen' (decodeNext_shadow env s _) fun t _ _ h => (hashNext_shadow env t _ _).mono fun w g => h.trans g
  · have hv : (t.verifyHash env).Ends (Shadow s) := (verifyHash_shadow env t).mono fun w g => h.trans g
    unfold checkNext
    split
    · exact h
    · split
      · exact hv
      · split
        · trivial
        · split
          · trivial
          · split
            · exact hv
            · exact h

theorem begin_shadow (s : Legacy) : Shadow s s.begin := ⟨From.refl _, rfl, rfl⟩

theorem hasPending_shadow (s : Legacy) : Shadow s s.hasPending.1 := ⟨From.refl _, rfl, rfl⟩

theorem round_shadow (env : AuthEnv) (s : Legacy) : (s.round env).Ends (Shadow s) := by
  unfold round
  refine Res.Ends.andThen' (P := Shadow s) ((prepare_shadow env s.begin).mono fun t h => (begin_shadow s).trans h) (fun t _ _ h => ?_)
  refine Res.Ends.andThen' (P := Shadow s) ?_ (fun w _ _ g => g.trans (finish_shadow w))
  unfold conduct
  split
  · unfold validate
    exact Res.Ends.andThen' ((verifyGop_shadow t).mono fun w g => h.trans g) (fun w p _ g => g.trans (conclude_shadow w p))
  · exact ⟨h.list, h.buddies, h.codec⟩

theorem visits_shadow {env : AuthEnv} {s u : Legacy} (h : Visits env s u) : Shadow s u := by
  induction h with
  | here _ h => exact (hasPending_shadow _).trans ((begin_shadow _).trans ((prepare_shadow env _).of_ok h))
  | next _ h _ ih => exact (hasPending_shadow _).trans (((round_shadow env _).of_ok h).trans ih)

theorem rounds_shadow (env : AuthEnv) (k : Nat) (s : Legacy) : (s.rounds env k).Ends (Shadow s) := by
  induction k generalizing s with
  | zero => trivial
  | succ k ih =>
    unfold rounds
    split
    · refine Res.Ends.andThen' (P := Shadow s) ((round_shadow env _).mono fun t h => (hasPending_shadow s).trans h) (fun t _ _ h => ?_)
      split
      · exact (ih t).mono fun w g => h.trans g
      · exact h.trans (hasPending_shadow t)
    · exact hasPending_shadow s

theorem recurrentDecoded_shadow (env : AuthEnv) (s : Legacy) : (s.recurrentDecoded env).Ends (Shadow s) :=
  (recurrentDecoded_frame env s).mono fun _ h => Shadow.of_decoded h

theorem maybeValidate_shadow (env : AuthEnv) (s : Legacy) : (s.maybeValidate env).Ends (Shadow s) := by
  unfold maybeValidate
  split
  · trivial
  · exact Shadow.refl _
  · refine Res.Ends.andThen' (recurrentDecoded_shadow env s) (fun t _ _ h => ?_)
    split
    · split
      · exact ⟨h.list, h.buddies, h.codec⟩
      · exact h
    · split
      · trivial
      · exact (rounds_shadow env _ t).mono fun w g => h.trans g

theorem copyNalu_face {n c : Nalu} (h : copyNalu true n = .ok (some c)) : face c = face n := by
  unfold copyNalu at h
  split at h
  · cases h
  · split at h
    · cases h
    · split at h
      · cases h
      · cases h
        unfold face
        dsimp only
        rw [List.take_take, Nat.min_self]

theorem copyLast_shadow {s : Legacy} (w : WFL s.list s.brk) : s.copyLast.Ends (Shadow s) := by
  unfold copyLast
  split
  · trivial
  · rename_i x hx
    split
    · exact Shadow.refl _
    · rename_i n hn
      split
      · trivial
      · exact Shadow.refl _
      · rename_i c hc
        refine ⟨?_, rfl, rfl⟩
        intro y hy
        unfold LList.set at hy
        obtain ⟨z, hz, rfl⟩ := List.mem_map.1 hy
        split
        · rename_i e
          have : z = x := w.unique hz (List.mem_of_getLast? hx) e
          subst this
          refine .inl ⟨z, hz, rfl, rfl, rfl, fun m hm => ⟨n, hn, ?_⟩, id⟩
          dsimp only at hm
          subst hm
          exact copyNalu_face hc
        · exact .inl ⟨z, hz, rfl, Same.refl _⟩

theorem markLast_shadow (s : Legacy) : Shadow s s.markLast := by
  unfold markLast
  split
  · exact Shadow.refl _
  · exact set_shadow (f := fun i => { i with status := .E }) fun i => Same.of_eq rfl rfl rfl

theorem bury_shadow (s : Legacy) (a : Nat) : Shadow s (s.bury a) := by
  unfold bury
  split
  · exact Shadow.refl _
  · exact set_shadow (f := fun i => { i with dead := true }) fun i => Same.of_eq rfl rfl rfl

theorem addEnd_shadow {s : Legacy} (w : WFL s.list s.brk) (a : Nat) (e : Option Rc) : (s.addEnd a e).Ends (Shadow s) := by
  unfold addEnd
  refine Res.Ends.andThen' (copyLast_shadow w) fun t e2 _ h => ?_
  split
  · exact h.trans (bury_shadow t a)
  · exact h.trans ((markLast_shadow t).trans (bury_shadow _ a))

theorem report_shadow (s : Legacy) : s.report.Ends (Shadow s) := by
  unfold report
  split
  · split
    · trivial
    · split
      · trivial
      · exact Shadow.refl _
      · rename_i p l hu
        refine ⟨?_, rfl, rfl⟩
        unfold updateReport at hu
        obtain ⟨c, _, hu⟩ := Out.bind_eq_ok hu
        cases hu
        exact From.of_subset fun y hy => (List.dropWhile_sublist _).subset hy
  · exact Shadow.refl _

/-! ### Where the hashes come from -/

variable {env : AuthEnv} {T : List Bytes} {c : Codec} {L : Log}

/-- A hash of a NAL unit: of its bytes, or of a reference and the hash of its bytes. -/
def HashOf (env : AuthEnv) (T : List Bytes) (c : Codec) (L : Log) (data h : Bytes) : Prop :=
  ∃ t ∈ T, h = env.H t (hashedBytes c data) ∨ ∃ r, RefHash env T 32 c L r ∧ h = env.H t (r ++ env.H t (hashedBytes c data))

theorem HashOf.cons {data h : Bytes} {p : Nat × Bytes} (hh : HashOf env T c L data h) : HashOf env T c (p :: L) data h := by
  obtain ⟨t, ht, e | ⟨r, hr, e⟩⟩ := hh
  · exact ⟨t, ht, .inl e⟩
  · exact ⟨t, ht, .inr ⟨r, RefHash.cons hr, e⟩⟩

/-- What an item has of the NAL unit that it stands for. -/
structure HeldOf (env : AuthEnv) (T : List Bytes) (c : Codec) (L : Log) (i : LItem) (data : Bytes) (n : Nalu) : Prop where
  hash : i.hash = [] ∨ HashOf env T c L data i.hash
  second : ∀ h, i.second = some h → HashOf env T c L data h
  nalu : ∀ m, i.nalu = some m → face m = face n
  sei : n.gopSei = true → i.hash = [] ∨ ∃ t ∈ T, i.hash = env.H t (hashedBytes c data)
  full : i.status = .P → i.hash ≠ []

/-- An item stands for a missing NAL unit, or for one that was received. -/
def Held (env : AuthEnv) (T : List Bytes) (c : Codec) (L : Log) (x : Nat × LItem) : Prop :=
  Blank x.2 ∨ ∃ data n, L.lookup x.1 = some data ∧ parseNalu data c true true = .ok n ∧ HeldOf env T c L x.2 data n

theorem Held.same {x y : Nat × LItem} (h : Held env T c L x) (e : x.1 = y.1) (hs : Same x.2 y.2) : Held env T c L y := by
  rcases h with hb | ⟨data, n, h1, h2, h3⟩
  · exact .inl (hs.blank hb)
  · refine .inr ⟨data, n, e ▸ h1, h2, by rw [hs.hash]; exact h3.hash, by rw [hs.second]; exact h3.second, fun m hm => ?_, by rw [hs.hash]; exact h3.sei,
      fun e => by rw [hs.hash]; exact h3.full (hs.pend e)⟩
    obtain ⟨k, g1, g2⟩ := hs.nalu m hm
    exact g2.trans (h3.nalu k g1)

theorem Held.cons {x : Nat × LItem} {p : Nat × Bytes} (h : Held env T c L x) (hx : x.1 ≠ p.1) : Held env T c (p :: L) x := by
  rcases h with hb | ⟨data, n, h1, h2, h3⟩
  · exact .inl hb
  · refine .inr ⟨data, n, ?_, h2, h3.hash.imp id HashOf.cons, fun h e => (h3.second h e).cons, h3.nalu, h3.sei, h3.full⟩
    rw [List.lookup_cons, show (x.1 == p.1) = false by simpa using hx]
    exact h1

/-- The items have hashes of the NAL units received. -/
structure Stored (env : AuthEnv) (T : List Bytes) (c : Codec) (L : Log) (s : Legacy) : Prop where
  codec : s.v.codec = c
  ref : RefHash env T 32 c L (s.v.buddies.take 32)
  items : ∀ x ∈ s.list, Held env T c L x

theorem Stored.shadow {s t : Legacy} (h : Stored env T c L s) (g : Shadow s t) : Stored env T c L t := by
  refine ⟨g.codec.trans h.codec, by rw [g.buddies]; exact h.ref, fun y hy => ?_⟩
  rcases g.list y hy with ⟨x, hx, e, hs⟩ | hb
  · exact (h.items x hx).same e hs
  · exact .inl hb

theorem hashNalu_of (he : Algs env T 32) {v v' : Validator} {n : Nalu} {h : Bytes} {a : Nat} {data : Bytes} (ha : Alg T 32 false v)
    (hr : RefHash env T 32 c L (v.buddies.take 32)) (hm : (a, data) ∈ L) (hb : n.hashable = hashedBytes c data)
    (e : v.hashNalu env n = .ok (v', h)) :
    RefHash env T 32 c L (v'.buddies.take 32) ∧ HashOf env T c L data h ∧ (n.gopSei = true → h = env.H v.typ (hashedBytes c data)) := by
  obtain ⟨q1, -, q3, -, -⟩ := hashNalu_spec he ha hr hm hb e
  refine ⟨q1, ?_, q3⟩
  unfold hashNalu at e
  obtain ⟨h1, e1, e⟩ := Out.bind_eq_ok e
  have e1 := Validator.digest_ok e1
  rw [hb] at e1
  have hl1 : h1.length = 32 := by rw [e1]; exact he.len _ ha.typ _
  split at e
  · cases e; exact ⟨_, ha.typ, .inl e1⟩
  · split at e
    · cases e; exact ⟨_, ha.typ, .inl e1⟩
    · obtain ⟨h2, e2, e⟩ := Out.bind_eq_ok e
      have e2 := Validator.digest_ok e2
      cases e
      rw [ha.size] at e2
      have hrl := RefHash.length he hr
      have ht : ((v.buddies.take 32) ++ ovl h1 (v.buddies.drop 32)).take (2 * 32) = v.buddies.take 32 ++ h1 := by
        rw [show 2 * 32 = (v.buddies.take 32).length + 32 by omega, List.take_length_add_append, ovl_take hl1]
      rw [ht] at e2
      exact ⟨_, ha.typ, .inr ⟨_, hr, by rw [e2, e1]⟩⟩

theorem updateHashable_face {n m : Nalu} (h : updateHashable n = .ok m) : face m = face n := by
  unfold updateHashable at h
  split at h
  · cases h; rfl
  · obtain ⟨o, _, h⟩ := Out.bind_eq_ok h
    cases o with
    | none => cases h; rfl
    | some k => cases h; rfl

theorem updateHashable_hashable {n m : Nalu} (h : updateHashable n = .ok m) : m.isHashable = n.isHashable := by
  unfold updateHashable at h
  split at h
  · cases h; rfl
  · obtain ⟨o, _, h⟩ := Out.bind_eq_ok h
    cases o with
    | none => cases h; rfl
    | some k => cases h; rfl

theorem findTagLoop_err {epb : Bool} {tag : UInt8} {size fuel off : Nat} {l : L2} {mem : Bytes} {e : Rc} :
    findTagLoop epb tag size fuel l mem off ≠ .err e := by
  induction fuel generalizing l mem off with
  | zero => exact nofun
  | succ k ih =>
    unfold findTagLoop
    split
    · exact nofun
    · split
      · exact nofun
      · split
        · exact nofun
        · split
          · exact nofun
          · split
            · split
              · exact nofun
              · split
                · exact nofun
                · exact ih
            · split
              · exact nofun
              · exact ih

theorem updateHashable_err {n : Nalu} {e : Rc} : updateHashable n ≠ .err e := by
  unfold updateHashable
  split
  · exact nofun
  · unfold findTag
    split
    · exact nofun
    · cases h : findTagLoop n.withEpb tagSignature n.tlvSize n.tlvSize L2.init n.tlvStart 0 with
      | ub u => exact nofun
      | err e => exact absurd h findTagLoop_err
      | ok o => cases o <;> exact nofun

theorem digest_err {v : Validator} {d : Bytes} {e : Rc} (h : v.digest env d = .err e) : e = .invalidParameter := by
  unfold Validator.digest hashData at h
  split at h
  · cases h; rfl
  · split at h
    · cases h; rfl
    · cases h

theorem hashNalu_err {v : Validator} {n : Nalu} {e : Rc} (h : v.hashNalu env n = .err e) : e = .invalidParameter := by
  unfold hashNalu at h
  cases h1 : v.digest env n.hashable with
  | ub u => simp only [bind, Out.bind, h1] at h; cases h
  | err e => simp only [bind, Out.bind, h1] at h; cases h; exact digest_err h1
  | ok d =>
    simp only [bind, Out.bind, h1] at h
    split at h
    · cases h
    · split at h
      · cases h
      · split at h
        · rename_i h2; cases h
        · rename_i h2; cases h; exact digest_err h2
        · cases h

theorem statusOf_P' {n : Nalu} (h : statusOf (some n) = .P) : n.valid > 0 ∧ n.isHashable = true := by
  refine ⟨statusOf_P h, ?_⟩
  simp only [statusOf] at h
  split at h
  · cases h
  · split at h
    · cases h
    · split at h
      · assumption
      · cases h

theorem HashOf.length (he : Algs env T 32) {data h : Bytes} (hh : HashOf env T c L data h) : h.length = 32 := by
  obtain ⟨t, ht, e | ⟨r, hr, e⟩⟩ := hh
  · rw [e]; exact he.len _ ht _
  · rw [e]; exact he.len _ ht _

theorem hashItem_stored (he : Algs env T 32) {s : Legacy} {l : LList} {a : Nat} {data : Bytes} {n m : Nalu}
    (hl : s.list = l ++ [(a, { LItem.new n with nalu := some m })]) (w : WFL l a) (ha : Alg T 32 false s.v)
    (hc : s.v.codec = c) (hr : RefHash env T 32 c L (s.v.buddies.take 32)) (hi : ∀ x ∈ l, Held env T c L x)
    (hlook : L.lookup a = some data) (hp : parseNalu data c true true = .ok n) (hf : face m = face n) (hb : m.hashable = hashedBytes c data)
    (hm : m.isHashable = n.isHashable) : Fine (Stored env T c L) (s.hashItem env a m) := by
  have hg : m.gopSei = n.gopSei := congrArg Prod.fst hf
  have put : ∀ {j : LItem}, HeldOf env T c L j data n → ∀ x ∈ l ++ [(a, j)], Held env T c L x := by
    intro j hj x hx
    rcases List.mem_append.1 hx with hx | hx
    · exact hi x hx
    · rw [List.mem_singleton] at hx
      subst hx
      exact .inr ⟨data, n, hlook, hp, hj⟩
  unfold hashItem
  split
  · rename_i hh
    refine ⟨hc, hr, ?_⟩
    rw [hl]
    refine put ⟨.inl rfl, fun h e => (by cases e), fun k e => (by cases e; exact hf), fun _ => .inl rfl, fun e => ?_⟩
    have := (statusOf_P' e).2
    rw [← hm] at this
    rw [this] at hh
    cases hh
  · split
    · trivial
    · rename_i e h1
      exact fun _ n2 => absurd (hashNalu_err h1) n2
    · rename_i v h h1
      obtain ⟨q1, q2, q3⟩ := hashNalu_of he ha hr (lookup_mem hlook) hb h1
      have hne : h ≠ [] := fun e => by
        have := HashOf.length he q2
        rw [e] at this
        cases this
      obtain ⟨b, r, hv⟩ := hashNalu_frame h1
      have hv : v = { s.v with buddies := b, hasRef := r } := hv
      have hset : ∀ (f : LItem → LItem), s.list.set a f = l ++ [(a, f { LItem.new n with nalu := some m })] := by
        intro f; rw [hl, set_end w]
      have hov : ovl h ({ LItem.new n with nalu := some m } : LItem).hash = h := by
        show h ++ List.drop h.length [] = h
        simp
      have hj : HeldOf env T c L { LItem.new n with nalu := some m, hash := h } data n :=
        ⟨.inr q2, fun h e => (by cases e), fun k e => (by cases e; exact hf), fun e => .inr ⟨_, ha.typ, q3 (hg.trans e)⟩, fun _ => hne⟩
      have h2 : ∀ x ∈ s.list.set a (fun i => { i with hash := ovl h i.hash }), Held env T c L x := by
        rw [hset]
        dsimp only
        rw [hov]
        exact put hj
      have hcod : v.codec = c := by rw [hv]; exact hc
      dsimp only
      split
      · generalize hq : Validator.hashNalu env _ m = q
        cases q with
        | ub u => trivial
        | err e => exact fun _ _ => ⟨hcod, q1, h2⟩
        | ok p =>
          obtain ⟨v2, g⟩ := p
          have ha2 : Alg T 32 false { v with hasRef := false } := by
            rw [hv]; exact ha.same rfl rfl rfl rfl
          obtain ⟨p1, p2, p3⟩ := hashNalu_of he ha2 q1 (lookup_mem hlook) hb hq
          obtain ⟨b2, r2, hv2⟩ := hashNalu_frame hq
          have hv2 : v2 = { v with buddies := b2, hasRef := r2 } := hv2
          refine ⟨by rw [hv2]; exact hcod, p1, ?_⟩
          dsimp only
          rw [set_set, hset]
          dsimp only
          rw [hov]
          exact put ⟨hj.hash, fun x e => (by cases e; exact p2), hj.nalu, hj.sei, hj.full⟩
      · exact ⟨hcod, q1, h2⟩

theorem register_stored (he : Algs env T 32) {s : Legacy} {data : Bytes} {n : Nalu} (hs : Calm env T s) (h : Stored env T c L s)
    (hp : parseNalu data c true true = .ok n) :
    Fine (Stored env T c ((s.brk, data) :: L)) ((s.opened n).register env s.brk n) ∧
      (n.valid ≤ 0 → Stored env T c ((s.brk, data) :: L) (s.opened n)) := by
  have hlook : List.lookup s.brk ((s.brk, data) :: L) = some data := by rw [List.lookup_cons]; simp
  have hi : ∀ x ∈ s.list, Held env T c ((s.brk, data) :: L) x := fun x hx => (h.items x hx).cons (by have := hs.wf.lt hx; dsimp only; omega)
  have ho : n.valid ≤ 0 → Stored env T c ((s.brk, data) :: L) (s.opened n) := by
    intro hv
    refine ⟨h.codec, RefHash.cons h.ref, fun x hx => ?_⟩
    rcases List.mem_append.1 (show x ∈ s.list ++ [(s.brk, LItem.new n)] from hx) with hx | hx
    · exact hi x hx
    · rw [List.mem_singleton] at hx
      subst hx
      refine .inr ⟨data, n, hlook, hp, .inl rfl, fun h e => (by cases e), fun k e => (by cases e; rfl), fun _ => .inl rfl, fun e => ?_⟩
      have := (statusOf_P' e).1
      omega
  refine ⟨?_, ho⟩
  unfold register
  split
  · trivial
  · rename_i hv1
    split
    · rename_i hv2
      exact ho (by omega)
    · rename_i hv2
      split
      · trivial
      · rename_i e he
        exact absurd he updateHashable_err
      · rename_i m hm
        refine hashItem_stored (l := s.list) (n := n) he ?_ hs.wf (hs.alg.same rfl rfl rfl rfl) h.codec (RefHash.cons h.ref) hi hlook hp
          (updateHashable_face hm) ?_ (updateHashable_hashable hm)
        · dsimp only [opened]
          rw [set_end hs.wf]
        · exact (hashedBytes_high hp (by omega) hm).symm

theorem entry_stored {s : Legacy} (h : Stored env T c L s) : Stored env T c L s.entry := ⟨h.codec, h.ref, h.items⟩

/-- The items in the states in which a call verifies have hashes of the NAL units received. -/
theorem atLoop_stored (he : Algs env T 32) {s v : Legacy} {data : Bytes} (hs : Calm env T s) (h : Stored env T c L s)
    (ha : s.atLoop env data = some v) : Stored env T c ((s.brk, data) :: L) v := by
  unfold atLoop at ha
  split at ha
  · cases ha
  · split at ha
    · rename_i n hp
      rw [h.codec] at hp
      have hr := (register_stored (data := data) he (entry_calm hs) (entry_stored h) hp).1
      dsimp only at ha
      split at ha
      · cases ha
      · split at ha
        · rename_i w _ hw
          have hw : (s.entry.opened n).register env s.entry.brk n = .ok w () := hw
          rw [hw] at hr
          have hr : Stored env T c ((s.brk, data) :: L) w := hr
          split at ha
          · split at ha
            · rename_i t ok ht
              have := hr.shadow ((recurrentDecoded_shadow env w).of_ok ht)
              split at ha
              · cases ha; exact this
              · cases ha
            · cases ha
          · cases ha
        · cases ha
    · cases ha

theorem addBody_stored (he : Algs env T 32) {s : Legacy} {data : Bytes} {n : Nalu} (hs : Calm env T s) (h : Stored env T c L s)
    (hp : parseNalu data c true true = .ok n) : Fine (Stored env T c ((s.brk, data) :: L)) (s.addBody env n) := by
  obtain ⟨h1, h2⟩ := register_stored (data := data) he hs h hp
  unfold addBody
  dsimp only
  split
  · rename_i hv
    have h2 := h2 (by omega)
    exact fun _ _ => ⟨h2.codec, h2.ref, h2.items⟩
  · refine Fine.andThen h1 (fun _ => id) fun t _ _ ht => Fine.of_ends ?_
    exact (maybeValidate_shadow env t).mono fun w g => ht.shadow g

theorem Stored.log {s : Legacy} (hs : Calm env T s) (h : Stored env T c L s) (data : Bytes) : Stored env T c ((s.brk, data) :: L) s :=
  ⟨h.codec, RefHash.cons h.ref, fun x hx => (h.items x hx).cons (by have := hs.wf.lt hx; dsimp only; omega)⟩

theorem add_stored (hverify : ∀ k sig h, env.verify k sig h = 0 ∨ env.verify k sig h = 1) (he : Algs env T 32) {s : Legacy} (hs : Calm env T s)
    (h : Stored env T c L s) (data : Bytes) : Fine (Stored env T c ((s.brk, data) :: L)) (s.add env data) := by
  unfold add
  split
  · exact fun _ _ => h.log hs data
  · rename_i hd
    have key : Fine (Stored env T c ((s.brk, data) :: L)) (s.addH26x env data) := by
      unfold addH26x
      rw [if_neg hd]
      split
      · trivial
      · exact fun _ _ => h.log hs data
      · rename_i n hp
        have hb := (addBody_covered hverify he hd hp hs).1
        have hq := addBody_stored (data := data) he (entry_calm hs) (entry_stored h) (h.codec ▸ hp)
        change Fine _ (match s.entry.addBody env n with
          | .ub u => .ub u
          | .err t e => t.addEnd s.brk (some e)
          | .ok t _ => t.addEnd s.brk none)
        cases h1 : s.entry.addBody env n with
        | ub u => trivial
        | err t e =>
          rw [h1] at hb hq
          dsimp only
          cases h2 : t.addEnd s.brk (some e) with
          | ub u => trivial
          | ok w x => exact absurd h2 (addEnd_rc.1 _ _)
          | err w e2 =>
            intro n1 n2
            have e3 := addEnd_rc.2 _ _ h2
            have hc := hb (by rw [← e3]; exact n1) (by rw [← e3]; exact n2)
            have hq : Stored env T c ((s.brk, data) :: L) t := hq (by rw [← e3]; exact n1) (by rw [← e3]; exact n2)
            exact hq.shadow ((addEnd_shadow hc.wf s.brk (some e)).of_err h2)
        | ok t x =>
          rw [h1] at hb hq
          dsimp only
          have := addEnd_shadow hb.wf s.brk none
          have hq : Stored env T c ((s.brk, data) :: L) t := hq
          cases h2 : t.addEnd s.brk none with
          | ub u => trivial
          | ok w _ => exact hq.shadow (this.of_ok h2)
          | err w e2 => exact fun _ _ => hq.shadow (this.of_err h2)
    cases h1 : s.addH26x env data with
    | ub u => trivial
    | err t e => rw [h1] at key; exact key
    | ok t x =>
      rw [h1] at key
      rw [Res.andThen_ok]
      have := report_shadow t
      cases h2 : t.report with
      | ub u => trivial
      | ok w _ => exact Stored.shadow key (this.of_ok h2)
      | err w e2 => exact fun _ _ => Stored.shadow key (this.of_err h2)

theorem reset_stored {s : Legacy} (h : Stored env T c L s) : (s.reset env).Ends (Stored env T c L) := by
  unfold reset
  dsimp only
  split
  · trivial
  · exact ⟨h.codec, h.ref, fun x hx => absurd hx List.not_mem_nil⟩
  · exact ⟨h.codec, h.ref, fun x hx => absurd hx List.not_mem_nil⟩

theorem create_stored {p : Validator} {l : Legacy} (hc : p.codec = c) (h : create env p = .ok l) : Stored env T c [] l := by
  unfold create at h
  obtain ⟨b, _, h⟩ := Out.bind_eq_ok h
  cases h
  refine ⟨hc, .inl ?_, fun x hx => absurd hx List.not_mem_nil⟩
  show List.take 32 (List.replicate 128 0) = _
  rw [List.take_replicate]; rfl

end Legacy
end SV
