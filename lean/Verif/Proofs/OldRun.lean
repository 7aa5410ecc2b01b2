import Verif.Proofs.OldStart
import Verif.Proofs.FlowStream
/-! Validation of an undisturbed stream of the older format: the whole stream. -/
namespace SV
open Spec
namespace Old
open Validator (Scene Knows Skips IsPiece NoVerdict trimZeros_ne)

variable {Γ : Scene}

/-- What the parser finds in an ordinary NAL unit. -/
theorem ordinary {c : Codec} {d : Bytes} (ho : Ordinary c d) : ∃ n, parseNalu d c true true = .ok n ∧ n.golden = false ∧
    (picture c d = none → Skips n) ∧ ∀ p, picture c d = some p → IsPiece p n ∧ n.hashable = p.bytes ∧ p.bytes ≠ [] := by
  have hd := ho.some
  obtain ⟨m, hp, hs⟩ := ho.reads
  obtain ⟨hg, -⟩ := parseNalu_unsigned hd hp
  obtain ⟨htl, hgo⟩ := hg hs
  have hpc := parse_piece d c true m hd hp
  refine ⟨m, hp, hgo, ?_⟩
  by_cases hP : Protected c ((body d).getD 0 0) ((body d).getD 1 0)
  · obtain ⟨h1, h2, h3, h4, h5⟩ := hpc.1 hP
    have hv : m.valid = 1 := by
      rcases h5 with h5 | h5
      · exact h5.1
      · exact absurd (ho.legal hP) h5.2
    have e : picture c d =
        some ⟨decide (IntraType c ((body d).getD 0 0) ((body d).getD 1 0) ∧ 128 ≤ (sliceByte c d).toNat), trimZeros (body d), none⟩ := by
      simp only [picture, StreamItem.piece, Spec.piece, if_pos hP]
    rw [e]
    generalize hpe : (⟨decide (IntraType c ((body d).getD 0 0) ((body d).getD 1 0) ∧ 128 ≤ (sliceByte c d).toNat), trimZeros (body d), none⟩ : Piece) = p
    refine ⟨(fun hc => by cases hc), fun q hq => ?_⟩
    cases hq
    refine ⟨⟨hv, h1, hs, hgo, by rw [h4, ← hpe], htl⟩, by rw [h3, ← hpe], ?_⟩
    rw [← hpe]
    exact trimZeros_ne (protected_nonzero _ _ hP)
  · have e : picture c d = none := by
      simp only [picture, StreamItem.piece, Spec.piece, if_neg hP]
    rw [e]
    refine ⟨fun _ => ⟨?_, .inr ?_, hs, htl, (hpc.2 hP).2⟩, fun q hq => by cases hq⟩
    · rcases parseNalu_valid hd hp with e | e <;> rw [e] <;> decide
    · cases hh : m.isHashable with
      | false => rfl
      | true =>
        have := ((hpc.2 hP).1 hh).2
        rw [hs] at this; cases this

/-! ### Runs -/

theorem run_cons {env : AuthEnv} {s s1 s2 : Session} {d : Bytes} {r : Option Report} {cs : List AuthCall} {os : List AObs} (h : s.add env d = .ok s1 r) (h2 : Session.run env s1 cs = .ok (s2, os)) :
    Session.run env s (.nalu d :: cs) = .ok (s2, ⟨none, r⟩ :: os) := by
  unfold Session.run Session.step Session.call
  dsimp only
  rw [h]
  dsimp only
  rw [Out.bind_ok]
  dsimp only
  rw [h2, Out.bind_ok]

theorem run_append {env : AuthEnv} {cs ds : List AuthCall} : ∀ {s s1 s2 : Session} {os ps : List AObs}, Session.run env s cs = .ok (s1, os) → Session.run env s1 ds = .ok (s2, ps) →
    Session.run env s (cs ++ ds) = .ok (s2, os ++ ps) := by
  induction cs with
  | nil =>
    intro s s1 s2 os ps h h2
    unfold Session.run at h
    cases h
    exact h2
  | cons c cs ih =>
    intro s s1 s2 os ps h h2
    unfold Session.run at h
    obtain ⟨⟨t, o⟩, h3, h4⟩ := Out.bind_eq_ok h
    obtain ⟨⟨t2, os2⟩, h5, h6⟩ := Out.bind_eq_ok h4
    cases h6
    rw [List.cons_append]
    unfold Session.run
    rw [h3, Out.bind_ok]
    dsimp only
    rw [ih h5 h2, Out.bind_ok]
    rfl

theorem asClaimed_append {a b : List (Option OldClaim)} : ∀ {os ps : List AObs}, AsClaimed a os → AsClaimed b ps → AsClaimed (a ++ b) (os ++ ps) := by
  induction a with
  | nil =>
    intro os ps h h2
    cases os with
    | nil => exact h2
    | cons o os => exact False.elim (by simpa [AsClaimed] using h)
  | cons e a ih =>
    intro os ps h h2
    cases os with
    | nil => cases e <;> exact False.elim (by simpa [AsClaimed] using h)
    | cons o os =>
      cases e with
      | none => exact ⟨h.1, h.2.1, ih h.2.2 h2⟩
      | some k => exact ⟨h.1, h.2.1, ih h.2.2 h2⟩

/-- A call to a session with one of the older format inside. -/
theorem add_inner {env : AuthEnv} {s : Session} {l l' : Legacy} {d : Bytes} {r : Option Report} (hs : s.leg = some l) (h : l.add env d = .ok l' r) :
    s.add env d = .ok { s with leg := some l' } r := by
  unfold Session.add
  rw [hs]
  dsimp only
  rw [h]

theorem run_between {w : Bool} {q : Nat} {i : Info} {doc : Bytes} {ref : Option Bytes} {hs : List Bytes} {ds : List Bytes} : ∀ {s : Session} {l : Legacy}, s.leg = some l → Due Γ w q ref hs i doc l →
    (∀ d ∈ ds, Ordinary Γ.codec d ∧ picture Γ.codec d = none) →
    ∃ s' l' os, Session.run Γ.env s (ds.map .nalu) = .ok (s', os) ∧ s'.leg = some l' ∧ Due Γ w q ref hs i doc l' ∧ AsClaimed (ds.map fun _ => none) os := by
  induction ds with
  | nil => intro s l h hd _; exact ⟨s, l, [], rfl, h, hd, trivial⟩
  | cons d ds ih =>
    intro s l h hd hx
    obtain ⟨ho, hn⟩ := hx d List.mem_cons_self
    obtain ⟨n, hp, -, h1, -⟩ := ordinary ho
    obtain ⟨l1, e1, e2⟩ := due_skip hd ho.some hp (h1 hn)
    obtain ⟨s', l', os, f1, f2, f3, f4⟩ := ih (s := { s with leg := some l1 }) rfl e2 fun z hz => hx z (List.mem_cons_of_mem _ hz)
    exact ⟨s', l', _, run_cons (add_inner h e1) f1, f2, f3, rfl, rfl, f4⟩

theorem run_rest (hΓ : Γ.Ok) {w : Bool} {q : Nat} {i : Bytes} {c : UInt32} {ds : List Bytes} : ∀ {s : Session} {l : Legacy} {r : List Bytes}, s.leg = some l → Ready Γ w q (some (Γ.H i)) (oldHashes Γ.H (i :: r)) c l →
    (∀ d ∈ ds, Ordinary Γ.codec d ∧ ∀ p, picture Γ.codec d = some p → p.first = false) →
    ∃ s' l' os, Session.run Γ.env s (ds.map .nalu) = .ok (s', os) ∧ s'.leg = some l' ∧
      Ready Γ w q (some (Γ.H i)) (oldHashes Γ.H (i :: (r ++ ds.filterMap fun d => (picture Γ.codec d).map Piece.bytes))) c l' ∧ AsClaimed (ds.map fun _ => none) os := by
  induction ds with
  | nil => intro s l r h hd _; exact ⟨s, l, [], rfl, h, by simpa using hd, trivial⟩
  | cons d ds ih =>
    intro s l r h hd hx
    obtain ⟨ho, hn⟩ := hx d List.mem_cons_self
    obtain ⟨n, hp, -, h1, h2⟩ := ordinary ho
    cases hpic : picture Γ.codec d with
    | none =>
      obtain ⟨l1, e1, e2⟩ := ready_skip hd ho.some hp (h1 hpic)
      obtain ⟨s', l', os, f1, f2, f3, f4⟩ := ih (s := { s with leg := some l1 }) rfl e2 fun z hz => hx z (List.mem_cons_of_mem _ hz)
      refine ⟨s', l', _, run_cons (add_inner h e1) f1, f2, ?_, rfl, rfl, f4⟩
      rw [List.filterMap_cons, hpic]
      exact f3
    | some p =>
      obtain ⟨k1, k2, k3⟩ := h2 p hpic
      obtain ⟨l1, e1, e2⟩ := ready_other hΓ hd ho.some hp k1 k2 k3 (hn p hpic) (by simp [oldHashes])
      have e3 : Ready Γ w q (some (Γ.H i)) (oldHashes Γ.H (i :: (r ++ [p.bytes]))) c l1 := by
        have : oldHashes Γ.H (i :: (r ++ [p.bytes])) = oldHashes Γ.H (i :: r) ++ [Γ.H (Γ.H i ++ Γ.H p.bytes)] := by simp [oldHashes]
        rw [this]; exact e2
      obtain ⟨s', l', os, f1, f2, f3, f4⟩ := ih (s := { s with leg := some l1 }) rfl e3 fun z hz => hx z (List.mem_cons_of_mem _ hz)
      refine ⟨s', l', _, run_cons (add_inner h e1) f1, f2, ?_, rfl, rfl, f4⟩
      rw [List.filterMap_cons, hpic]
      simpa using f3

/-- The reference after the NAL units `prev` of a GOP. -/
def refOf (Γ : Scene) (prev : List Bytes) : Option Bytes := prev.head?.map Γ.H

/-- The SEI matches the hashes or not. -/
def Matches (s : OldSei) (b : Bool) (c : Codec) (H : Bytes → Bytes) (verify : Bytes → Bytes → Int) (hs : List Bytes) : Prop :=
  if b then s.Signs c H verify hs else s.Refuses c H verify hs

theorem oldHashes_snoc (prev : List Bytes) (x : Bytes) : oldHashes Γ.H (prev ++ [x]) = oldHashes Γ.H prev ++ [transHash Γ (refOf Γ prev) x] := by
  cases prev with
  | nil => rfl
  | cons i r => simp [oldHashes, refOf, transHash]

theorem signs_of {s : OldSei} {b : Bool} {prev : List Bytes} {x : Bytes} (hs : s.e.signature ≠ []) (h32 : Γ.size = 32)
    (h : Matches s b Γ.codec Γ.H (Γ.env.verify Γ.key) (oldHashes Γ.H (prev ++ [x]))) :
    Signs Γ b (oldHashes Γ.H prev) (transHash Γ (refOf Γ prev) x) (s.doc Γ.codec) (infoOf s) := by
  rw [oldHashes_snoc] at h
  cases b with
  | true =>
    replace h : s.Signs Γ.codec Γ.H (Γ.env.verify Γ.key) _ := h
    refine ⟨fun _ => ?_, hs, ?_⟩
    · have := h.num
      rw [List.length_append] at this
      exact this
    · rcases h.verified with ⟨a1, a2, a3, a4⟩ | ⟨a1, a2⟩
      · left
        refine ⟨a1, ⟨rfl, ?_⟩, a4⟩
        show s.e.hashList.getD [] = _
        rw [a3]; rfl
      · right
        refine ⟨a1, h32, ?_⟩
        rw [List.append_assoc] at a2
        exact a2
  | false =>
    replace h : s.Refuses Γ.codec Γ.H (Γ.env.verify Γ.key) _ := h
    refine ⟨(fun hc => by cases hc), hs, .inr ⟨h.typ, h32, ?_⟩⟩
    have := h.refused
    rw [List.append_assoc] at this
    exact this

theorem oldHashes_length {H : Bytes → Bytes} (l : List Bytes) : (oldHashes H l).length = l.length := by
  cases l <;> simp [oldHashes]

theorem oldHashes_ne {H : Bytes → Bytes} {l : List Bytes} (h : l ≠ []) : oldHashes H l ≠ [] := by
  intro hc
  have := oldHashes_length (H := H) l
  rw [hc] at this
  exact h (List.length_eq_zero_iff.1 this.symm)

/-- The number of NAL units that have failed already. -/
def fails (q : Bool) : Nat := if q then 1 else 0

theorem overall_eq (w b q : Bool) (k : Nat) : (w && decide (wrongs b (fails q) (k + 1) = 0)) = (w && b && !q) := by
  cases w <;> cases b <;> cases q <;> simp [wrongs, fails]

/-- The NAL units of a GOP after its SEI. -/
theorem run_gop (hΓ : Γ.Ok) (h32 : Γ.size = 32) {g : OldGop} {b q w : Bool} {prev : List Bytes} {s : Session} {l : Legacy} (hl : s.leg = some l)
    (hd : Due Γ w (fails q) (refOf Γ prev) (oldHashes Γ.H prev) (infoOf g.sei) (g.sei.doc Γ.codec) l) (hsh : g.Shape Γ.codec) (hne : g.sei.e.signature ≠ [])
    (hsg : Matches g.sei b Γ.codec Γ.H (Γ.env.verify Γ.key) (oldHashes Γ.H (prev ++ (g.pictures Γ.codec).take 1))) (hbad : b = false ∨ q = true → prev ≠ []) :
    ∃ s' l' os, Session.run Γ.env s ((g.between ++ g.first :: g.rest).map .nalu) = .ok (s', os) ∧ s'.leg = some l' ∧
      Ready Γ (w && b && !q) (fails (!b)) (refOf Γ (g.pictures Γ.codec)) (oldHashes Γ.H (g.pictures Γ.codec)) g.sei.e.gopCounter l' ∧
      AsClaimed ((g.between.map fun _ => none) ++ some (g.claim prev.length b q w) :: g.rest.map fun _ => none) os := by
  obtain ⟨hb, ⟨ho, p, hp, hf⟩, hr⟩ := hsh
  have hpics : g.pictures Γ.codec = p.bytes :: g.rest.filterMap fun d => (picture Γ.codec d).map Piece.bytes := by
    unfold OldGop.pictures
    rw [List.filterMap_cons, hp]
    rfl
  obtain ⟨s1, l1, os1, a1, a2, a3, a4⟩ := run_between hl hd hb
  obtain ⟨n, hn, -, -, h2⟩ := ordinary ho
  obtain ⟨k1, k2, k3⟩ := h2 p hp
  rw [hpics] at hsg ⊢
  obtain ⟨l2, r, b1, b2, b3⟩ := due_first hΓ a3 ho.some hn k1 k2 k3 hf (signs_of hne h32 hsg) (fun hc => oldHashes_ne (hbad (hc.imp id fun hx => by
    cases q with
    | true => rfl
    | false => exact absurd rfl hx)))
  rw [oldHashes_length, overall_eq] at b2 b3
  have hfl : (if b = true then 0 else 1) = fails (!b) := by cases b <;> rfl
  rw [hfl] at b3
  obtain ⟨s3, l3, os3, c1, c2, c3, c4⟩ := run_rest hΓ (s := { s1 with leg := some l2 }) (r := []) (i := p.bytes) rfl b3 hr
  refine ⟨s3, l3, os1 ++ ⟨none, some r⟩ :: os3, ?_, c2, c3, asClaimed_append a4 ⟨rfl, ⟨r, rfl, b2⟩, c4⟩⟩
  rw [List.map_append, List.map_cons]
  exact run_append a1 (run_cons (add_inner a2 b1) c1)

/-- The session has one for the older format inside it, and no SEI waits in it. -/
def Follows (Γ : Scene) (s : Session) : Prop := ∃ l w q ref hs c, s.leg = some l ∧ Ready Γ w q ref hs c l

theorem Matches.list {s : OldSei} {b : Bool} {c : Codec} {H : Bytes → Bytes} {verify : Bytes → Bytes → Int} {hs : List Bytes} (h : Matches s b c H verify hs) (ht : s.e.hashType = 1) : 4 ∈ s.tags := by
  cases b with
  | true =>
    rcases (show s.Signs c H verify hs from h).verified with a | a
    · exact a.2.1
    · rw [ht] at a; exact absurd a.1 (by decide)
  | false =>
    have := (show s.Refuses c H verify hs from h).typ
    rw [ht] at this; exact absurd this (by decide)

theorem OldGop.Shape.pictures {g : OldGop} {c : Codec} (h : g.Shape c) : g.pictures c ≠ [] := by
  obtain ⟨-, ⟨-, p, hp, -⟩, -⟩ := h
  unfold OldGop.pictures
  rw [List.filterMap_cons, hp]
  simp

/-- GOPs after the first SEI. -/
theorem run_gops (hΓ : Γ.Ok) (h32 : Γ.size = 32) (hR : Γ.Reads) (hl : Γ.lists = true) (ho : Γ.oid = Γ.env.oid) {gs : List (OldGop × Bool)} : ∀ {prev : List Bytes} {k : UInt32} {w q : Bool} {s : Session} {l : Legacy},
    s.leg = some l → Ready Γ w (fails q) (refOf Γ prev) (oldHashes Γ.H prev) k l → OldReceived Γ.env Γ.key Γ.codec Γ.maxSig prev (some k) gs →
    (prev = [] → q = false ∧ ∀ p ∈ gs.head?, p.2 = true) →
    ∃ s' os, Session.run Γ.env s ((gs.flatMap fun g => g.1.units Γ.codec).map .nalu) = .ok (s', os) ∧ AsClaimed (oldClaims Γ.codec prev.length q w gs) os ∧ Follows Γ s' := by
  have hH : Γ.H = Γ.env.H Γ.env.oid := by funext b; show Γ.env.H Γ.oid b = _; rw [ho]
  induction gs with
  | nil => intro prev k w q s l hs hd _ _; exact ⟨s, [], rfl, trivial, l, _, _, _, _, _, hs, hd⟩
  | cons g gs ih =>
    obtain ⟨g, b⟩ := g
    intro prev k w q s l hs hd ⟨h1, h2, h3, h4, h5⟩ hp
    rw [← hH] at h3
    replace h3 : Matches g.sei b Γ.codec Γ.H (Γ.env.verify Γ.key) (oldHashes Γ.H (prev ++ (g.pictures Γ.codec).take 1)) := h3
    obtain ⟨n, m, e1, e2, -, -⟩ := isOld hR hl ho h2 h3.list
    obtain ⟨l1, f1, f2⟩ := ready_sei hΓ hd (by simp [OldSei.bytes]) e1 e2 (h4 k rfl)
    obtain ⟨s2, l2, os, g1, g2, g3, g4⟩ := run_gop hΓ h32 (s := { s with leg := some l1 }) rfl f2 h1 h2.signature h3 (fun hc he => by
      obtain ⟨q1, q2⟩ := hp he
      rcases hc with hc | hc
      · have := q2 (g, b) rfl
        rw [show b = true from this] at hc; cases hc
      · rw [q1] at hc; cases hc)
    obtain ⟨s3, os3, k1, k2, k3⟩ := ih g2 g3 h5 (fun he => absurd he (OldGop.Shape.pictures h1))
    refine ⟨s3, (⟨none, none⟩ :: os) ++ os3, ?_, ?_, k3⟩
    · rw [List.flatMap_cons, List.map_append]
      exact run_append (run_cons (add_inner hs f1) g1) k1
    · exact asClaimed_append (os := ⟨none, none⟩ :: os) ⟨rfl, rfl, g4⟩ k2

/-- NAL units before the first SEI. -/
theorem run_leading (hΓ : Γ.Ok) {ds : List Bytes} : ∀ {s : Session}, Before Γ s → (∀ d ∈ ds, Ordinary Γ.codec d ∧ picture Γ.codec d = none) →
    ∃ s' os, Session.run Γ.env s (ds.map .nalu) = .ok (s', os) ∧ Before Γ s' ∧ os.length = ds.length ∧ ∀ o ∈ os, o.rc = none ∧ NoVerdict o.report := by
  induction ds with
  | nil => intro s h _; exact ⟨s, [], rfl, h, rfl, by intro o ho; cases ho⟩
  | cons d ds ih =>
    intro s h hx
    obtain ⟨ho, hn⟩ := hx d List.mem_cons_self
    obtain ⟨n, hp, hg, h1, -⟩ := ordinary ho
    obtain ⟨s1, r, e1, e2, e3⟩ := before_skip hΓ h ho.some hp (h1 hn) hg
    obtain ⟨s2, os, f1, f2, f3, f4⟩ := ih e2 fun z hz => hx z (List.mem_cons_of_mem _ hz)
    refine ⟨s2, _, run_cons e1 f1, f2, by simp [f3], ?_⟩
    intro o ho
    rcases List.mem_cons.1 ho with rfl | ho
    · exact ⟨rfl, e3⟩
    · exact f4 o ho

/-- The whole stream. -/
theorem run_stream (hΓ : Γ.Ok) (hsent : Γ.sent = true) (h32 : Γ.size = 32) (hR : Γ.Reads) (hl : Γ.lists = true) (ho : Γ.oid = Γ.env.oid) {lead : List Bytes} {g : OldGop} {gs : List (OldGop × Bool)}
    (hlead : ∀ d ∈ lead, Ordinary Γ.codec d ∧ picture Γ.codec d = none) (h2 : 2 ∈ g.sei.tags) (hsg : OldReceived Γ.env Γ.key Γ.codec Γ.maxSig [] none ((g, true) :: gs)) :
    ∃ s os ps, Session.run Γ.env (newSession Γ.env Γ.codec) ((lead ++ ((g, true) :: gs).flatMap fun g => g.1.units Γ.codec).map .nalu) = .ok (s, os ++ ps) ∧
      os.length = lead.length ∧ (∀ o ∈ os, o.rc = none ∧ NoVerdict o.report) ∧ AsClaimed (oldClaims Γ.codec 0 false true ((g, true) :: gs)) ps ∧ Follows Γ s := by
  have hH : Γ.H = Γ.env.H Γ.env.oid := by funext b; show Γ.env.H Γ.oid b = _; rw [ho]
  obtain ⟨s1, os1, a1, a2, a3, a4⟩ := run_leading hΓ (before_new hΓ hsent) hlead
  obtain ⟨k1, k2, k3, -, k5⟩ := hsg
  rw [← hH] at k3
  replace k3 : Matches g.sei true Γ.codec Γ.H (Γ.env.verify Γ.key) (oldHashes Γ.H ([] ++ (g.pictures Γ.codec).take 1)) := k3
  have hkey : Γ.key ≠ [] := by
    have e1 := k2.values 2 h2
    have e2 := k2.key h2
    have e3 := (k2.fits.key _ e2)
    intro hc
    rw [hc] at e3
    simp at e3
  obtain ⟨n, m, e1, e2, e3, e4⟩ := isOld hR hl ho k2 k3.list
  obtain ⟨s2, l2, f1, f2, f3⟩ := before_sei hΓ hkey a2 (by simp [OldSei.bytes]) e1 e2 (e4 h2) e3
  obtain ⟨s3, l3, os3, g1, g2, g3, g4⟩ := run_gop hΓ h32 (prev := []) (q := false) f2 f3 k1 k2.signature k3 (fun hc => by rcases hc with hc | hc <;> cases hc)
  obtain ⟨s4, os4, j1, j2, j3⟩ := run_gops hΓ h32 hR hl ho g2 g3 k5 (fun he => absurd he (OldGop.Shape.pictures k1))
  refine ⟨s4, os1, ⟨none, none⟩ :: os3 ++ os4, ?_, a3, a4, asClaimed_append (os := ⟨none, none⟩ :: os3) ⟨rfl, rfl, g4⟩ j2, j3⟩
  rw [List.map_append, List.flatMap_cons, List.map_append]
  exact run_append a1 (run_append (run_cons f1 g1) j1)

/-! ### After a reset -/

theorem reset_ready (hΓ : Γ.Ok) {l : Legacy} {ref : Option Bytes} {hs : List Bytes} {c : UInt32} {w : Bool} {q : Nat} (h : Ready Γ w q ref hs c l) (c' : UInt32) :
    ∃ l', l.reset Γ.env = .ok l' () ∧ Ready Γ true 0 none [] c' l' := by
  obtain ⟨v, hv⟩ : ∃ v : Validator, v = { l.v with
    verified := -1, d := { l.v.d with hashList := [] }, hasRef := false, synced := false
    gop := {}, flags := {}, rep := { l.v.rep with latest := latestInit, acc := accumulatedInit } } := ⟨_, rfl⟩
  have hk := h.knows
  have hkv : Knows Γ v := by rw [hv]; exact ⟨hk.known, hk.size, hk.typ, hk.oid, hk.has, hk.pub, hk.key, rfl, hk.max, fun _ => rfl⟩
  have hdg := Validator.digest_eq hΓ (s := v) ⟨hkv.known, hkv.size, hkv.typ⟩ (b := [1]) (by simp)
  have hres : Legacy.resetGopHash Γ.env v l.hashes = .ok (ovl (Γ.H [1]) l.hashes) := by
    unfold Legacy.resetGopHash
    rw [hdg, Out.bind_ok]
  refine ⟨{ l with v := v, list := [], hashes := ovl (Γ.H [1]) l.hashes }, ?_, ⟨⟨hkv, ?_, ?_, ?_, ?_, ?_, ⟨List.nodup_nil, (by intro a ha; cases ha)⟩, ?_, ?_⟩, ?_, rfl, (by intro b hb; cases hb), ?_, rfl, (by rw [hv]; rfl)⟩⟩
  · unfold Legacy.reset
    dsimp only
    rw [← hv, hres]
  · rw [hv]; exact h.codec
  · rw [hv]
  · show v.hasRef = false
    rw [hv]
  · rw [hv]; exact h.bud
  · have := Validator.ovl_grows (Γ.H [1]) l.hashes
    have := h.hashes
    show 64 ≤ (ovl (Γ.H [1]) l.hashes).length
    omega
  · refine .inr ?_
    rw [hv]
    show accumulatedInit.auth.val ≤ _
    decide
  · rw [hv]; exact h.version
  · rw [hv]
  · intro hx
    rw [hv] at hx; cases hx

theorem run_lead {c : UInt32} {ds : List Bytes} : ∀ {s : Session} {l : Legacy}, s.leg = some l → Ready Γ true 0 none [] c l → (∀ d ∈ ds, Ordinary Γ.codec d ∧ picture Γ.codec d = none) →
    ∃ s' l' os, Session.run Γ.env s (ds.map .nalu) = .ok (s', os) ∧ s'.leg = some l' ∧ Ready Γ true 0 none [] c l' ∧ AsClaimed (ds.map fun _ => none) os := by
  induction ds with
  | nil => intro s l h hd _; exact ⟨s, l, [], rfl, h, hd, trivial⟩
  | cons d ds ih =>
    intro s l h hd hx
    obtain ⟨ho, hn⟩ := hx d List.mem_cons_self
    obtain ⟨n, hp, -, h1, -⟩ := ordinary ho
    obtain ⟨l1, e1, e2⟩ := ready_skip hd ho.some hp (h1 hn)
    obtain ⟨s', l', os, f1, f2, f3, f4⟩ := ih (s := { s with leg := some l1 }) rfl e2 fun z hz => hx z (List.mem_cons_of_mem _ hz)
    exact ⟨s', l', _, run_cons (add_inner h e1) f1, f2, f3, rfl, rfl, f4⟩

theorem oldReceived_from {env : AuthEnv} {key : Bytes} {c : Codec} {max : Nat} {gs : List (OldGop × Bool)} (h : OldReceived env key c max [] none gs) : ∃ k, OldReceived env key c max [] (some k) gs := by
  cases gs with
  | nil => exact ⟨0, trivial⟩
  | cons g gs =>
    obtain ⟨g, b⟩ := g
    obtain ⟨h1, h2, h3, -, h5⟩ := h
    refine ⟨g.sei.e.gopCounter - 1, h1, h2, h3, ?_, h5⟩
    intro k hk
    cases hk
    rw [UInt32.sub_add_cancel]

/-- A further stream after a reset. -/
theorem run_again (hΓ : Γ.Ok) (h32 : Γ.size = 32) (hR : Γ.Reads) (hl : Γ.lists = true) (ho : Γ.oid = Γ.env.oid) {lead : List Bytes} {gs : List (OldGop × Bool)} {s : Session} (hs : Follows Γ s)
    (hlead : ∀ d ∈ lead, Ordinary Γ.codec d ∧ picture Γ.codec d = none) (hsg : OldReceived Γ.env Γ.key Γ.codec Γ.maxSig [] none gs) (hfst : ∀ p ∈ gs.head?, p.2 = true) :
    ∃ s' os, Session.run Γ.env s (.reset :: (lead ++ gs.flatMap fun g => g.1.units Γ.codec).map .nalu) = .ok (s', os) ∧
      AsClaimed (none :: ((lead.map fun _ => none) ++ oldClaims Γ.codec 0 false true gs)) os ∧ Follows Γ s' := by
  obtain ⟨l, w, q, ref, hh, c, h1, h2⟩ := hs
  obtain ⟨k, hk⟩ := oldReceived_from hsg
  obtain ⟨l1, e1, e2⟩ := reset_ready hΓ h2 k
  obtain ⟨s2, l2, os2, f1, f2, f3, f4⟩ := run_lead (s := { s with v := s.v.reset, leg := some l1 }) rfl e2 hlead
  obtain ⟨s3, os3, g1, g2, g3⟩ := run_gops hΓ h32 hR hl ho (prev := []) (q := false) f2 f3 hk (fun _ => ⟨rfl, hfst⟩)
  refine ⟨s3, ⟨none, none⟩ :: (os2 ++ os3), ?_, ⟨rfl, rfl, asClaimed_append f4 g2⟩, g3⟩
  have hstep : s.step Γ.env .reset = .ok ({ s with v := s.v.reset, leg := some l1 }, ⟨none, none⟩) := by
    unfold Session.step Session.call
    dsimp only
    rw [h1]
    dsimp only
    rw [e1]
  unfold Session.run
  rw [hstep, Out.bind_ok]
  dsimp only
  rw [List.map_append, run_append f1 g1, Out.bind_ok]

/-- Any number of further streams. -/
theorem run_more (hΓ : Γ.Ok) (h32 : Γ.size = 32) (hR : Γ.Reads) (hl : Γ.lists = true) (ho : Γ.oid = Γ.env.oid) {more : List (List Bytes × List (OldGop × Bool))} : ∀ {s : Session}, Follows Γ s →
    (∀ p ∈ more, (∀ d ∈ p.1, Ordinary Γ.codec d ∧ picture Γ.codec d = none) ∧ OldReceived Γ.env Γ.key Γ.codec Γ.maxSig [] none p.2 ∧ ∀ x ∈ p.2.head?, x.2 = true) →
    ∃ s' os, Session.run Γ.env s (more.flatMap fun p => AuthCall.reset :: (p.1 ++ p.2.flatMap fun g => g.1.units Γ.codec).map .nalu) = .ok (s', os) ∧
      AsClaimed (more.flatMap fun p => none :: ((p.1.map fun _ => none) ++ oldClaims Γ.codec 0 false true p.2)) os := by
  induction more with
  | nil => intro s _ _; exact ⟨s, [], rfl, trivial⟩
  | cons p more ih =>
    intro s hs hx
    obtain ⟨h1, h2, h3⟩ := hx p List.mem_cons_self
    obtain ⟨s1, os1, e1, e2, e3⟩ := run_again hΓ h32 hR hl ho hs h1 h2 h3
    obtain ⟨s2, os2, f1, f2⟩ := ih e3 fun q hq => hx q (List.mem_cons_of_mem _ hq)
    refine ⟨s2, os1 ++ os2, ?_, asClaimed_append e2 f2⟩
    rw [List.flatMap_cons]
    exact run_append e1 f1

/-! ### Undisturbed streams -/

theorem oldReceived_of {env : AuthEnv} {key : Bytes} {c : Codec} {max : Nat} {gs : List OldGop} : ∀ {prev : List Bytes} {n : Option UInt32}, OldSigned env key c max prev n gs →
    OldReceived env key c max prev n (gs.map fun g => (g, true)) := by
  induction gs with
  | nil => intro _ _ _; trivial
  | cons g gs ih => intro prev n ⟨h1, h2, h3, h4, h5⟩; exact ⟨h1, h2, h3, h4, ih h5⟩

theorem good_of {k : Nat} {r : Report} (h : OldClaim.Said ⟨k, k, 0, true⟩ r) : OldGood k r := by
  obtain ⟨str, e1, e2, e3, e4, e5, e6⟩ := h.marks
  refine ⟨h.latest, h.overall, h.key, h.expected, h.received, h.pending, str, e1, e2, e5, ?_⟩
  intro x hx
  rcases e6 x hx with e | e | e | e | e | e
  · exact .inl e
  · rw [e] at hx
    have := List.count_pos_iff.2 hx
    have e3' : str.count 'N' = 0 := e3
    omega
  · rw [e] at hx
    have := List.count_pos_iff.2 hx
    have e4' : str.count 'M' = 0 := by rw [e4]; exact Nat.sub_self _
    omega
  · exact .inr (.inl e)
  · exact .inr (.inr (.inl e))
  · exact .inr (.inr (.inr e))

/-- The claim for a call of an undisturbed stream. -/
def asGood : Option Nat → Option OldClaim := Option.map fun k => ⟨k, k, 0, true⟩

theorem asReported_of {es : List (Option Nat)} : ∀ {os : List AObs}, AsClaimed (es.map asGood) os → AsReported es os := by
  induction es with
  | nil => intro os h; cases os with
    | nil => trivial
    | cons o os => exact False.elim (by simpa [AsClaimed] using h)
  | cons e es ih =>
    intro os h
    cases os with
    | nil => cases e <;> exact False.elim (by simpa [AsClaimed, asGood] using h)
    | cons o os =>
      cases e with
      | none => exact ⟨h.1, h.2.1, ih h.2.2⟩
      | some k =>
        obtain ⟨r, h1, h2⟩ := h.2.1
        exact ⟨h.1, ⟨r, h1, good_of h2⟩, ih h.2.2⟩

theorem oldClaims_of {env : AuthEnv} {key : Bytes} {c : Codec} {max : Nat} {gs : List OldGop} : ∀ {prev : List Bytes} {n : Option UInt32}, OldSigned env key c max prev n gs →
    oldClaims c prev.length false true (gs.map fun g => (g, true)) = (oldReports c prev.length gs).map asGood := by
  induction gs with
  | nil => intro _ _ _; rfl
  | cons g gs ih =>
    intro prev n ⟨h1, h2, h3, h4, h5⟩
    have hnum := h3.num
    have hlen : ((g.pictures c).take 1).length = 1 := by
      have := List.length_pos_iff.2 (OldGop.Shape.pictures h1)
      rw [List.length_take]; omega
    rw [oldHashes_length, List.length_append, hlen] at hnum
    have hc : some (g.claim prev.length true false true) = asGood (some (prev.length + 1)) := by
      unfold OldGop.claim
      rw [hnum]; rfl
    rw [List.map_cons]
    unfold oldClaims oldReports OldGop.reports
    rw [show (true && true && !false) = true from rfl, show (!true) = false from rfl, ih h5, hc]
    simp [asGood]
    rfl

end Old
end SV
