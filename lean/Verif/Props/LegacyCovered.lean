import Verif.Proofs.LegacyStored
import Verif.Props.LegacyForged
import Verif.Props.AuthSame
/-! C58: what the flag for NAL units that are used in a GOP hash cannot let through. -/
namespace SV
open Legacy Validator

namespace Legacy

/-- The item at an address is backed by a signature in the state `u`: the first pending SEI has been read, its signature is
accepted, and what it signs is either the hash of the SEI, which has the hash of the item in its hash list, or the GOP hash of
items of the list, in which the item is. -/
def Backed (env : AuthEnv) (u : Legacy) (a : Nat) : Prop :=
  ∃ sei k key, nextSei u.list = some sei ∧ keyOf sei = some k ∧ Read env u.v k ∧ u.v.key = some key ∧
    env.verify key u.v.d.signature (buf 32 u.v.sigHash) = 1 ∧
    if u.v.d.hashType = 1 then
      buf 32 u.v.sigHash = buf 32 sei.2.hash ∧
        (sei.1 = a ∨ ∃ x ∈ u.list, x.1 = a ∧ x.2.status = .P ∧ taken x ∈ chunk 32 u.v.d.hashList)
    else
      ∃ hashed : LList, hashed.Sublist u.list ∧
        buf 32 u.v.sigHash = gopHashOf (env.H u.v.typ) (hashed.map taken ++ [buf 32 sei.2.hash]) ∧
        (sei.1 = a ∨ ∃ x ∈ hashed, x.1 = a)

theorem Covered.backed {env : AuthEnv} {T : List Bytes} {u : Legacy} {a : Nat} (h : Covered env T u a) : Backed env u a := by
  obtain ⟨⟨⟨x, hx, e, hv⟩, key, hk, hsig⟩, ⟨sei, k, h1, h2, h3, h4⟩, hb⟩ := h
  have h5 := hb.alg.size
  rw [h5] at hsig
  refine ⟨sei, k, key, h1, h2, h3, hk, hsig, ?_⟩
  have how := hv.how
  split at how
  · rename_i ht
    rw [if_pos ht]
    refine ⟨?_, ?_⟩
    · rw [h3.2 ht]
      obtain ⟨n, -, -, -, rfl⟩ := keyOf_some h2
      rfl
    · rcases how with ⟨s2, g1, g2⟩ | ⟨g1, -, g, g2, g3⟩
      · rw [h1] at g1; cases g1
        exact .inl (g2.trans e)
      · refine .inr ⟨x, hx, e, g1, ?_⟩
        unfold taken
        rw [g2]
        rw [h5] at g3
        exact g3
  · rename_i ht
    rw [if_neg ht]
    obtain ⟨hashed, g1, -, g3, g4⟩ := h4 ht
    refine ⟨hashed, g1, g4, ?_⟩
    rcases g3 x hx how.1 with g | g
    · exact .inl (g.symm.trans e)
    · exact .inr ⟨x, g, e⟩

/-- The state of a session for the older format with all NAL units that it has been given, latest first, each with the address
of the item that it got. -/
inductive Passed (env : AuthEnv) : Legacy → Log → Prop
  | new {p : Validator} {l : Legacy} : create env p = .ok l → Passed env l []
  | reset {l l' : Legacy} {L : Log} : Passed env l L → LeadsTo (l.reset env) l' → Passed env l' L
  | add {l l' : Legacy} {L : Log} {data : Bytes} : Passed env l L → LeadsTo (l.add env data) l' → Passed env l' ((l.brk, data) :: L)

/-- A call for a NAL unit marks the item at an address, in a state where the items have hashes of the NAL units received. -/
def MarksIn (env : AuthEnv) (T : List Bytes) (c : Codec) (D : Bytes → Prop) (s : Legacy) (data : Bytes) (a : Nat) : Prop :=
  ∃ L v u, Passed env s L ∧ (∀ p ∈ (s.brk, data) :: L, D p.2) ∧ s.atLoop env data = some v ∧ Visits env v u ∧ Covered env T u a ∧
    ∀ x ∈ u.list, Held env T c ((s.brk, data) :: L) x

/-- The calls of a history that mark what is in the list. -/
def Trailed (env : AuthEnv) (T : List Bytes) (c : Codec) (D : Bytes → Prop) (l : Legacy) (h : List (Legacy × Bytes)) : Prop :=
  Since env l h ∧ Calm env T l ∧ (∃ L, Passed env l L ∧ (∀ p ∈ L, D p.2) ∧ Stored env T c L l) ∧
    ∀ y ∈ l.list, y.2.status = .ok → ∃ q ∈ h, MarksIn env T c D q.1 q.2 y.1

variable {env : AuthEnv} {T : List Bytes} {c : Codec} {D : Bytes → Prop}
  (hverify : ∀ k sig h, env.verify k sig h = 0 ∨ env.verify k sig h = 1) (he : Algs env T 32)

include he in
theorem MarksOf.marksIn {l : Legacy} {h : List (Legacy × Bytes)} (hk : Trailed env T c D l h) {data : Bytes} (hd : D data) {a : Nat}
    (hm : MarksOf env T l data a) : MarksIn env T c D l data a := by
  obtain ⟨v, u, h1, h2, h3⟩ := hm
  obtain ⟨-, k2, ⟨L, k3, k4, k5⟩, -⟩ := hk
  refine ⟨L, v, u, k3, ?_, h1, h2, h3, ((atLoop_stored he k2 k5 h1).shadow (visits_shadow h2)).items⟩
  intro p hp
  rcases List.mem_cons.1 hp with rfl | hp
  · exact hd
  · exact k4 p hp

include he in
theorem Trailed.made {l : Legacy} {h : List (Legacy × Bytes)} {data : Bytes} (hk : Trailed env T c D l h) (hd : D data) {L : LList}
    (hm : Made (MarksOf env T l data) l.list L) :
    ∀ y ∈ L, y.2.status = .ok → ∃ q ∈ (l, data) :: h, MarksIn env T c D q.1 q.2 y.1 := by
  intro y hy hs
  rcases hm y hy hs with ⟨x, hx, e, g⟩ | g
  · obtain ⟨q, hc, hm⟩ := hk.2.2.2 x hx g
    exact ⟨q, .tail _ hc, e ▸ hm⟩
  · exact ⟨_, .head _, g.marksIn he hk hd⟩

include hverify he in
theorem Trailed.add {l : Legacy} {h : List (Legacy × Bytes)} (hk : Trailed env T c D l h) {data : Bytes} (hd : D data) :
    (∀ l' r, l.add env data = .ok l' r → Trailed env T c D l' ((l, data) :: h)) ∧
    (∀ l' e, l.add env data = .err l' e → e ≠ .notSupported → e ≠ .invalidParameter → Trailed env T c D l' ((l, data) :: h)) ∧
    ∀ l' r, l.add env data = .ok l' (some r) → ∃ L : LList,
      r.latest.validationStr = some (L.map fun (x : Nat × LItem) => x.2.status.char) ∧
      ∀ y ∈ L, y.2.status = .ok → ∃ q ∈ (l, data) :: h, MarksIn env T c D q.1 q.2 y.1 := by
  have hm := fun {L : LList} => Trailed.made he hk hd (L := L)
  obtain ⟨h1, h2, ⟨L, k1, k2, k3⟩, h3⟩ := hk
  obtain ⟨a1, a2, a3⟩ := add_covered hverify he h2 data
  have a4 := add_stored hverify he h2 k3 data
  have hD : ∀ p ∈ (l.brk, data) :: L, D p.2 := by
    intro p hp
    rcases List.mem_cons.1 hp with rfl | hp
    · exact hd
    · exact k2 p hp
  refine ⟨fun l' r ha => ?_, fun l' e ha n1 n2 => ?_, fun l' r ha => ?_⟩
  · rw [ha] at a1 a2 a4
    exact ⟨h1.add (.inl ⟨_, ha⟩), a1, ⟨_, k1.add (.inl ⟨_, ha⟩), hD, a4⟩, hm a2⟩
  · rw [ha] at a1 a2 a4
    exact ⟨h1.add (.inr ⟨_, ha⟩), a1 n1 n2, ⟨_, k1.add (.inr ⟨_, ha⟩), hD, a4 n1 n2⟩, hm a2⟩
  · obtain ⟨L, g1, g2⟩ := a3 l' r ha
    exact ⟨L, g1, hm g2⟩

theorem Trailed.new {p : Validator} {l : Legacy} (ha : Alg T 32 false p) (hc : p.codec = c) (h : create env p = .ok l) :
    Trailed env T c D l [] :=
  ⟨.new h, create_calm ha h, ⟨[], .new h, fun p hp => absurd hp List.not_mem_nil, create_stored hc h⟩,
    fun y hy => by rw [(create_idle h).2] at hy; cases hy⟩

theorem Trailed.reset {l : Legacy} {h : List (Legacy × Bytes)} (hk : Trailed env T c D l h) :
    (l.reset env).Ends fun t => Trailed env T c D t [] := by
  obtain ⟨k1, k2, ⟨L, k3, k4, k5⟩, -⟩ := hk
  have h1 := reset_calm k2
  have h2 := reset_idle env l
  have h3 := reset_stored k5
  cases hr : l.reset env with
  | ub u => trivial
  | err t e =>
    rw [hr] at h1 h2 h3
    exact ⟨k1.reset (.inr ⟨e, hr⟩), h1, ⟨L, k3.reset (.inr ⟨e, hr⟩), k4, h3⟩, fun y hy => by rw [h2.2] at hy; cases hy⟩
  | ok t a =>
    rw [hr] at h1 h2 h3
    exact ⟨k1.reset (.inl ⟨a, hr⟩), h1, ⟨L, k3.reset (.inl ⟨a, hr⟩), k4, h3⟩, fun y hy => by rw [h2.2] at hy; cases hy⟩

include hverify he in
theorem replay_kept {raw : List (Nat × Bytes)} (hraw : ∀ p ∈ raw, D p.2) (l : NList) {s : Legacy} {h : List (Legacy × Bytes)}
    (hs : Trailed env T c D s h) : Fine (fun t => ∃ h, Trailed env T c D t h) (Session.replay env raw l s) := by
  induction l generalizing s h with
  | nil => exact ⟨h, hs⟩
  | cons x r ih =>
    unfold Session.replay
    split
    · trivial
    · split
      · trivial
      · rename_i y hy
        obtain ⟨a1, a2, -⟩ := hs.add hverify he (hraw y (List.mem_of_find?_eq_some hy))
        cases h1 : s.add env y.2 with
        | ub u => trivial
        | err t e => exact fun n1 n2 => ⟨_, a2 t e h1 n1 n2⟩
        | ok t a => exact ih (a1 t a h1)

end Legacy

/-- A session in which what is verified is tied to what is marked. -/
def Session.Tame (env : AuthEnv) (T : List Bytes) (codec : Codec) (D : Bytes → Prop) (s : Session) : Prop :=
  (∃ L, Good s.v ∧ Content env T 32 codec L s.v) ∧ (∀ p ∈ s.raw, D p.2) ∧ ∀ l, s.leg = some l → ∃ h, Trailed env T codec D l h

/-- As `Legacy.Fine`, for a session. -/
def FineS {α : Type} (P : Session → Prop) : Res Session α → Prop
  | .ok t _ => P t
  | .err t e => e ≠ .notSupported → e ≠ .invalidParameter → P t
  | .ub _ => True

section
variable {env : AuthEnv} {T : List Bytes} {D : Bytes → Prop} (hverify : ∀ k sig h, env.verify k sig h = 0 ∨ env.verify k sig h = 1) (he : Algs env T 32)

include hverify he in
theorem add_tame {codec : Codec} {s : Session} (hs : s.Tame env T codec D) {data : Bytes} (hd : D data) :
    FineS (Session.Tame env T codec D) (s.add env data) ∧
    ∀ s' r, s.add env data = .ok s' (some r) → s'.leg ≠ none → ∃ l h, Since env l h ∧ ∃ L : LList,
      r.latest.validationStr = some (L.map fun (x : Nat × LItem) => x.2.status.char) ∧
      ∀ y ∈ L, y.2.status = .ok → ∃ c ∈ (l, data) :: h, MarksIn env T codec D c.1 c.2 y.1 := by
  obtain ⟨⟨L0, hv0⟩, hr0, hl0⟩ := hs
  unfold Session.add
  split
  · rename_i l hl
    obtain ⟨h, hh⟩ := hl0 l hl
    obtain ⟨a1, a2, a3⟩ := hh.add hverify he hd
    split
    · rename_i l' r h1
      refine ⟨⟨⟨L0, hv0⟩, hr0, fun l'' e => ?_⟩, fun s' r' e _ => ?_⟩
      · cases e; exact ⟨_, a1 _ _ h1⟩
      · cases e; exact ⟨l, h, hh.1, a3 _ _ h1⟩
    · rename_i l' e h1
      refine ⟨fun n1 n2 => ⟨⟨L0, hv0⟩, hr0, fun l'' e => ?_⟩, fun s' r' e _ => by cases e⟩
      cases e; exact ⟨_, a2 _ _ h1 n1 n2⟩
    · exact ⟨trivial, fun s' r' e _ => by cases e⟩
  · rename_i hl
    have hc := (content_step he codec).call (.nalu data) hv0
    have hr1 : ∀ p ∈ (s.v.brk, data) :: s.raw, D p.2 := by
      intro p hp
      rcases List.mem_cons.1 hp with rfl | hp
      · exact hd
      · exact hr0 p hp
    have hno : ∀ l, s.leg = some l → ∃ h, Trailed env T codec D l h := fun l e => by rw [hl] at e; cases e
    unfold authCall at hc
    dsimp only at hc ⊢
    split
    · exact ⟨trivial, fun s' r' e _ => by cases e⟩
    · rename_i v r hv
      rw [hv] at hc
      split
      · split
        · exact ⟨trivial, fun s' r' e _ => by cases e⟩
        · refine ⟨fun n1 n2 => ⟨⟨logStep s.v L0 (.nalu data), ?_⟩, hr1, hno⟩, fun s' r' e _ => by cases e⟩
          exact (content_step he codec).misc _ _ _ rfl ((content_step he codec).toBodyStep.markLast hc)
        · rename_i l0 h0
          have hr := replay_kept hverify he hr1 v.list.dropLast (Trailed.new hc.2.core.alg hc.2.core.codec h0)
          generalize hw : Session.replay env ((s.v.brk, data) :: s.raw) v.list.dropLast l0 = w at hr
          cases w with
          | ub u => exact ⟨trivial, fun s' r' e _ => by cases e⟩
          | err t e =>
            refine ⟨fun n1 n2 => ⟨⟨_, hc⟩, hr1, fun l' e => ?_⟩, fun s' r' e _ => by cases e⟩
            cases e; exact hr n1 n2
          | ok t a =>
            rw [Res.andThen_ok]
            obtain ⟨h, hh⟩ := hr
            obtain ⟨a1, a2, a3⟩ := hh.add hverify he hd
            split
            · rename_i l1 r1 h1
              refine ⟨⟨⟨_, hc⟩, hr1, fun l' e => ?_⟩, fun s' r' e _ => ?_⟩
              · cases e; exact ⟨_, a1 _ _ h1⟩
              · cases e; exact ⟨t, h, hh.1, a3 _ _ h1⟩
            · rename_i l1 e1 h1
              refine ⟨fun n1 n2 => ⟨⟨_, hc⟩, hr1, fun l' e => ?_⟩, fun s' r' e _ => by cases e⟩
              cases e; exact ⟨_, a2 _ _ h1 n1 n2⟩
            · exact ⟨trivial, fun s' r' e _ => by cases e⟩
      · refine ⟨⟨⟨_, hc⟩, hr1, hno⟩, fun s' r' e hne => ?_⟩
        cases e; exact absurd hl hne
    · rename_i v e hv
      rw [hv] at hc
      split
      · split
        · exact ⟨trivial, fun s' r' e _ => by cases e⟩
        · refine ⟨fun n1 n2 => ⟨⟨logStep s.v L0 (.nalu data), ?_⟩, hr1, hno⟩, fun s' r' e _ => by cases e⟩
          exact (content_step he codec).misc _ _ _ rfl ((content_step he codec).toBodyStep.markLast hc)
        · rename_i l0 h0
          have hr := replay_kept hverify he hr1 v.list.dropLast (Trailed.new hc.2.core.alg hc.2.core.codec h0)
          generalize hw : Session.replay env ((s.v.brk, data) :: s.raw) v.list.dropLast l0 = w at hr
          cases w with
          | ub u => exact ⟨trivial, fun s' r' e _ => by cases e⟩
          | err t e =>
            refine ⟨fun n1 n2 => ⟨⟨_, hc⟩, hr1, fun l' e => ?_⟩, fun s' r' e _ => by cases e⟩
            cases e; exact hr n1 n2
          | ok t a =>
            refine ⟨fun n1 n2 => ⟨⟨_, hc⟩, hr1, fun l' e => ?_⟩, fun s' r' e _ => by cases e⟩
            cases e; exact hr
      · exact ⟨fun n1 n2 => ⟨⟨_, hc⟩, hr1, hno⟩, fun s' r' e _ => by cases e⟩

include hverify he in
theorem call_tame {codec : Codec} {s : Session} (hs : s.Tame env T codec D) (c : AuthCall) (hd : ∀ d, c = .nalu d → D d) :
    FineS (Session.Tame env T codec D) (s.call env c) := by
  cases c with
  | nalu d => exact (add_tame hverify he hs (hd d rfl)).1
  | reset =>
    obtain ⟨⟨L0, hv0⟩, hr0, hl0⟩ := hs
    have hv1 := (content_step he codec).reset L0 s.v hv0
    unfold Session.call
    dsimp only
    split
    · rename_i hl
      exact ⟨⟨_, hv1⟩, hr0, fun l e => by rw [show s.leg = some l from e] at hl; cases hl⟩
    · rename_i l hl
      obtain ⟨h, hh⟩ := hl0 l hl
      have hr := hh.reset
      split
      · rename_i l' _ h1
        rw [h1] at hr
        exact ⟨⟨_, hv1⟩, hr0, fun l'' e => by cases e; exact ⟨_, hr⟩⟩
      · rename_i l' _ h1
        rw [h1] at hr
        exact fun _ _ => ⟨⟨_, hv0⟩, hr0, fun l'' e => by cases e; exact ⟨_, hr⟩⟩
      · trivial
  | publicKey k =>
    obtain ⟨⟨L0, hv0⟩, hr0, hl0⟩ := hs
    have hc := (content_step he codec).call (.publicKey k) hv0
    unfold authCall at hc
    dsimp only at hc
    unfold Session.call
    dsimp only
    cases h : s.v.setPublicKey env k with
    | ub u => trivial
    | err v e => rw [h] at hc; exact fun _ _ => ⟨⟨_, hc⟩, hr0, hl0⟩
    | ok v x => rw [h] at hc; exact ⟨⟨_, hc⟩, hr0, hl0⟩

include hverify he in
theorem run_tame {codec : Codec} {s s' : Session} {cs : List AuthCall} {os : List AObs} (hs : s.Tame env T codec D)
    (hd : ∀ d, AuthCall.nalu d ∈ cs → D d) (h : s.run env cs = .ok (s', os)) (ho : ∀ o ∈ os, o.rc ≠ some .notSupported ∧ o.rc ≠ some .invalidParameter) : s'.Tame env T codec D := by
  induction cs generalizing s os with
  | nil => cases h; exact hs
  | cons c cs ih =>
    unfold Session.run Session.step at h
    have hc := call_tame hverify he hs c (fun d e => hd d (e ▸ .head _))
    cases h1 : s.call env c with
    | ub u => rw [h1] at h; cases h
    | ok t r =>
      rw [h1] at h hc
      cases h2 : t.run env cs with
      | ub u => simp only [bind, Out.bind, h2] at h; cases h
      | err e => simp only [bind, Out.bind, h2] at h; cases h
      | ok p =>
        simp only [bind, Out.bind, h2] at h; cases h
        exact ih hc (fun d m => hd d (.tail _ m)) h2 fun o hm => ho o (.tail _ hm)
    | err t e =>
      rw [h1] at h hc
      cases h2 : t.run env cs with
      | ub u => simp only [bind, Out.bind, h2] at h; cases h
      | err e => simp only [bind, Out.bind, h2] at h; cases h
      | ok p =>
        simp only [bind, Out.bind, h2] at h; cases h
        have := ho _ (.head _)
        exact ih (hc (fun e => this.1 (congrArg some e)) (fun e => this.2 (congrArg some e))) (fun d m => hd d (.tail _ m)) h2 fun o hm => ho o (.tail _ hm)

end

/-- **C58**, the part that holds. If the library knows hashes of 32 bytes only, the verification of a signature always gives
a result, and no call so far has returned "not supported" or "invalid parameter", then a report of a session for the older format
shows '.' for a NAL unit only if, in this call or in an earlier one since the last reset, a SEI was read from the list whose
signature was accepted as one of the hash of the SEI, with the hash of the NAL unit in its hash list, or as one of the GOP hash,
computed from the hashes of NAL units in the list, of which this NAL unit is one; or the NAL unit is the SEI itself. -/
theorem C58_covered_partial {env : AuthEnv} {T : List Bytes} {codec : Codec} {calls : List AuthCall} {s s' : Session} {os : List AObs} {data : Bytes}
    {r : Report} (hverify : ∀ k sig h, env.verify k sig h = 0 ∨ env.verify k sig h = 1) (he : Algs env T 32)
    (hist : Session.run env (newSession env codec) calls = .ok (s, os))
    (hrc : ∀ o ∈ os, o.rc ≠ some .notSupported ∧ o.rc ≠ some .invalidParameter)
    (h : s.add env data = .ok s' (some r)) (hold : s'.leg ≠ none) :
    ∃ l past, Since env l past ∧ ∃ items : LList,
      r.latest.validationStr = some (items.map fun (x : Nat × LItem) => x.2.status.char) ∧
      ∀ y ∈ items, y.2.status.char = '.' → ∃ c ∈ (l, data) :: past, ∃ v u, c.1.atLoop env c.2 = some v ∧ Visits env v u ∧ Backed env u y.1 := by
  have h0 : (newSession env codec).Tame env T codec (fun _ => True) :=
    ⟨⟨[], good_new env codec, content_new he rfl codec⟩, fun _ _ => trivial, fun l e => by cases e⟩
  have hr := run_tame hverify he h0 (fun _ _ => trivial) hist hrc
  obtain ⟨l, past, h1, L, g1, g2⟩ := (add_tame hverify he hr (data := data) trivial).2 s' r h hold
  refine ⟨l, past, h1, L, g1, fun y hy hc => ?_⟩
  have hs : y.2.status = .ok := by
    generalize y.2.status = st at hc
    cases st <;> first | rfl | (simp [Status.char] at hc)
  obtain ⟨c, hm, -, v, u, -, -, k1, k2, k3, -⟩ := g2 y hy hs
  exact ⟨c, hm, v, u, k1, k2, k3.backed⟩

/-- Signatures are right or wrong. -/
def polyStrict : AuthEnv := { polyEnv with verify := fun _ s h => if s = toySig h then 1 else 0 }

theorem poly_algs : Algs polyStrict [[0x60, 0x86]] 32 where
  oids o n h := by
    have h : (if o = [0x60, 0x86] then some 32 else none) = some n := h
    split at h
    · rename_i e; cases h; exact ⟨rfl, by rw [e]; simp⟩
    · cases h
  dflt := by decide
  len t _ b := by show (polyHash b).length = 32; simp [polyHash]
  pos := by decide
  le := by decide

/-- The results that end what is known of a session. -/
def AObs.fine (o : AObs) : Bool := o.rc != some .notSupported && o.rc != some .invalidParameter

/-- A session with a signed stream, with hash lists and with GOP hashes, in which NAL units are found authentic. -/
theorem poly_fine : Algs polyStrict [[0x60, 0x86]] 32 ∧ (∀ k sig h, polyStrict.verify k sig h = 0 ∨ polyStrict.verify k sig h = 1) ∧
    ∀ b, ∃ s os, Session.run polyStrict (newSession polyStrict .h264) (((legSigned b "IPPIPPI").take 9).map .nalu) = .ok (s, os) ∧
      (∀ o ∈ os, o.rc ≠ some .notSupported ∧ o.rc ≠ some .invalidParameter) ∧
      ∃ s' r, s.add polyStrict ((legSigned b "IPPIPPI").getD 9 []) = .ok s' (some r) ∧ s'.leg ≠ none ∧
        r.latest.validationStr = some "....P".toList := by
  refine ⟨poly_algs, fun k sig h => ?_, fun b => ?_⟩
  · show (if sig = toySig h then (1 : Int) else 0) = 0 ∨ _ = 1
    split
    · exact .inr (if_pos ‹_›)
    · exact .inl rfl
  · obtain ⟨s, os, h, hp⟩ := legCheck polyStrict (newSession polyStrict .h264) (((legSigned b "IPPIPPI").take 9).map .nalu)
      (fun s os => os.all AObs.fine && match s.add polyStrict ((legSigned b "IPPIPPI").getD 9 []) with
        | .ok s' (some r) => s'.leg.isSome && r.latest.validationStr == some "....P".toList
        | _ => false) (by cases b <;> decide +kernel)
    simp only [Bool.and_eq_true, List.all_eq_true] at hp
    refine ⟨s, os, h, fun o ho => ?_, ?_⟩
    · have := hp.1 o ho
      simp only [AObs.fine, Bool.and_eq_true, bne_iff_ne] at this
      exact this
    · have h2 := hp.2
      split at h2
      · rename_i s' r e
        simp only [Bool.and_eq_true, beq_iff_eq] at h2
        exact ⟨s', r, e, fun hn => by rw [hn] at h2; exact absurd h2.1 (by decide), h2.2⟩
      · cases h2

/-- The hypotheses of `C58_covered_partial` are met. -/
example : ∃ l past data, Since polyStrict l past ∧ ∃ items : LList, items.map (fun (x : Nat × LItem) => x.2.status.char) = "....P".toList ∧
    ∀ y ∈ items, y.2.status.char = '.' →
      ∃ c ∈ (l, data) :: past, ∃ v u, c.1.atLoop polyStrict c.2 = some v ∧ Visits polyStrict v u ∧ Backed polyStrict u y.1 := by
  obtain ⟨he, hv, h⟩ := poly_fine
  obtain ⟨s, os, h1, h2, s', r, h3, h4, h5⟩ := h true
  obtain ⟨l, past, g1, items, g2, g3⟩ := C58_covered_partial hv he h1 h2 h3 h4
  rw [h5] at g2
  exact ⟨l, past, _, g1, items, (Option.some.inj g2).symm, g3⟩

end SV
