import Verif.Proofs.SignRecur
/-! The calls of a signing session keep the decisions whether the public key and lists of hashes are put into SEIs. -/
namespace SV
open Spec

/-- The two decisions. -/
def EncState.switches (e : EncState) : Bool × Bool := (e.addPublicKey, e.frameLevel)

theorem tlvWrite_addKey (epb : Bool) (e : EncState) (s : L2) (t : Tuple) :
    (tlvWrite epb e s t).2.2.switches = e.switches := by
  rw [tlvWrite_state]
  split
  · rfl
  · unfold afterWrite
    split
    · rfl
    · split <;> rfl

theorem tlvListWrite_addKey (epb : Bool) (ts : List UInt8) : ∀ (e : EncState) (s : L2),
    (tlvListWrite epb e s ts).2.2.switches = e.switches := by
  induction ts with
  | nil => intro e s; rfl
  | cons t ts ih =>
    intro e s
    unfold tlvListWrite
    split
    · dsimp only
      rw [ih, tlvWrite_addKey]
    · exact ih e s

theorem seiStart_addKey (o : SeiOpts) (e : EncState) : (seiStart o e).2.switches = e.switches := by
  unfold seiStart
  dsimp only
  rw [tlvListWrite_addKey, tlvListWrite_addKey, tlvListWrite_addKey]
  unfold applyFallback; split <;> rfl

/-- The decisions are kept, and a SEI that was generated follows them. -/
def Adds (s t : Signer) : Prop :=
  t.e.switches = s.e.switches ∧ ∀ g, t.signed = some g → s.signed = some g ∨ g.e.switches = s.e.switches

theorem Adds.refl (s : Signer) : Adds s s := ⟨rfl, fun _ h => .inl h⟩

theorem Adds.trans {a b c : Signer} (h : Adds a b) (g : Adds b c) : Adds a c := by
  refine ⟨g.1.trans h.1, fun x hx => ?_⟩
  rcases g.2 x hx with k | k
  · exact h.2 x k
  · exact .inr (k.trans h.1)

theorem Adds.of {s t : Signer} (h : t.e.switches = s.e.switches) (g : t.signed = s.signed) : Adds s t :=
  ⟨h, fun x hx => .inl (by rw [← g]; exact hx)⟩

theorem All.adds {α β : Type} {s : Signer} {r : Res Signer α} {f : Signer → α → Res Signer β} (h : r.All (Adds s))
    (g : ∀ t a, (f t a).All (Adds t)) : (r.andThen f).All (Adds s) := by
  cases r with
  | ok t a => exact Res.All.mono (g t a) (fun u hu => Adds.trans h hu)
  | err t e => exact h
  | ub u => trivial

theorem All.from {α : Type} {s t : Signer} {r : Res Signer α} (h : Adds s t) (g : r.All (Adds t)) : r.All (Adds s) :=
  g.mono fun _ hu => h.trans hu

theorem ofOut_adds {α : Type} (s : Signer) (o : Out α) : (Res.ofOut s o).All (Adds s) := by
  cases o <;> first | trivial | exact Adds.refl s

theorem updateHash_adds (s : Signer) (d : Bytes) : (updateHash s d).All (Adds s) := by
  unfold updateHash
  split <;> first | trivial | exact .of rfl rfl

theorem simplyHash_adds (hs : Hashing) (s : Signer) (d : Bytes) (f : Bool) : (simplyHash hs s d f).All (Adds s) := by
  unfold simplyHash
  split
  · exact ofOut_adds _ _
  · refine All.adds (updateHash_adds s d) (fun t _ => ?_)
    split <;> first | trivial | exact .of rfl rfl

theorem hashAndAdd_adds (hs : Hashing) (s : Signer) (n : Nalu) (f l : Bool) : (hashAndAdd hs s n f l).All (Adds s) := by
  unfold hashAndAdd
  split
  · exact Adds.refl s
  · dsimp only
    generalize ht : (if (f && !l) = true then { s with secondary := .open [] } else s : Signer) = t
    have h0 : Adds s t := by subst ht; split <;> exact .of rfl rfl
    clear ht
    have onErr : ∀ r : Res Signer Unit, r.All (Adds t) → (r.onErr fun s => { s with e := { s.e with hashList := none } }).All (Adds s) := by
      intro r hr
      cases r with
      | ok u a => exact h0.trans hr
      | err u a => exact (h0.trans hr).trans (.of rfl rfl)
      | ub u => trivial
    apply onErr
    split
    · exact updateHash_adds _ _
    · refine All.adds ?_ (fun u a => ?_)
      · split
        · exact simplyHash_adds _ _ _ _
        · split
          · exact All.adds (simplyHash_adds _ _ _ _) (fun u a => .of rfl rfl)
          · exact All.adds (simplyHash_adds _ _ _ _) (fun u a => ofOut_adds _ _)
      · show Adds u _
        split <;> exact .of rfl rfl

theorem generateSei_adds (hs : Hashing) (s : Signer) (rc : Option Rc) : (generateSei hs s rc).All (Adds s) := by
  have hk : (seiStart s.opts s.encNow).2.switches = s.e.switches := seiStart_addKey _ _
  unfold generateSei
  split
  · exact Adds.refl s
  dsimp only
  have h0 : Adds s { s with e := (seiStart s.opts s.encNow).2 } := .of hk rfl
  split
  · trivial
  split
  · trivial
  · exact h0
  · next fake _ =>
    have h1 := hashAndAdd_adds hs { s with e := (seiStart s.opts s.encNow).2 } fake true true
    cases hr : hashAndAdd hs { s with e := (seiStart s.opts s.encNow).2 } fake true true with
    | ub u => trivial
    | err u e => rw [hr] at h1; exact h0.trans h1
    | ok u x =>
      rw [hr] at h1
      have h2 : Adds s u := h0.trans h1
      simp only [Res.andThen_ok]
      cases rc with
      | some e => exact h2.trans (.of rfl rfl)
      | none =>
        refine ⟨h2.1, fun g hg => .inr ?_⟩
        cases hg
        rfl

theorem addPayload_adds (s : Signer) (p : SeiSlot) : (addPayload s p).All (Adds s) := by
  unfold addPayload
  repeat' split
  all_goals first | trivial | exact .of rfl rfl

theorem prepare_adds (s : Signer) : (prepare s).All (Adds s) := by
  unfold prepare
  split
  · exact Adds.refl s
  · dsimp only
    split <;> exact .of rfl rfl

theorem countFrame_adds (s : Signer) (n : Nalu) (l : Bool) : (countFrame s n l).All (Adds s) := by
  unfold countFrame
  split
  · dsimp only
    repeat' split
    all_goals first | trivial | exact .of rfl rfl
  · exact Adds.refl s

theorem endOfGop_adds (hs : Hashing) (s : Signer) (ts : Option Int64) (rc : Option Rc) : (endOfGop hs s ts rc).All (Adds s) := by
  unfold endOfGop
  split
  · dsimp only
    have h0 : Adds s (stamp s ts) := by cases ts <;> exact .of rfl rfl
    generalize stamp s ts = w at h0
    split
    · exact h0
    · trivial
    · next c h _ =>
      refine All.from (h0.trans (.of rfl rfl : Adds w { w with primary := c, e := { w.e with gopHash := h } })) ?_
      exact All.adds (generateSei_adds hs _ rc) fun u p => All.adds (addPayload_adds u p) fun v _ => .of rfl rfl
  · exact .of rfl rfl

theorem addNalu_adds (hs : Hashing) (s : Signer) (d : Bytes) (ts : Option Int64) (l : Bool) (rc : Option Rc) :
    (addNalu hs s d ts l rc).All (Adds s) := by
  unfold addNalu
  split
  · exact Adds.refl s
  · refine All.adds ?_ fun t p => ?_
    · unfold nextPart
      split
      · split <;> first | trivial | exact .of rfl rfl
      · split <;> first | trivial | exact .of rfl rfl
    · unfold addParsed
      refine All.adds (prepare_adds t) fun t _ => ?_
      split
      · exact Adds.refl t
      · refine All.adds (countFrame_adds t _ _) fun t _ => ?_
        refine All.adds ?_ fun t _ => All.adds (hashAndAdd_adds hs t _ _ _) fun t _ => ?_
        · split
          · exact endOfGop_adds hs t ts rc
          · exact Adds.refl t
        · show Adds t _
          split <;> exact .of rfl rfl

theorem completeSei_adds (s : Signer) : (completeSei s).All (Adds s) := by
  unfold completeSei
  repeat' split
  all_goals first | trivial | exact .of rfl rfl | (dsimp only; split <;> first | trivial | exact .of rfl rfl)

theorem completeSeis_adds (sigs : List SigAnswer) : ∀ s : Signer, (completeSeis s sigs).All (Adds s) := by
  induction sigs with
  | nil => intro s; exact Adds.refl s
  | cons a sigs ih =>
    intro s
    cases a with
    | error e => exact Adds.refl s
    | ok sig =>
      unfold completeSeis
      split
      · trivial
      · exact All.from (.of rfl rfl : Adds s { s with e := { s.e with signature := sig }, got := s.got ++ [sig] })
          (All.adds (completeSei_adds _) fun t _ => ih t)

theorem shiftBuf_adds (s : Signer) (i : Nat) : (shiftBuf s i).All (Adds s) := by
  unfold shiftBuf
  repeat' split
  all_goals first | trivial | exact .of rfl rfl

theorem handOut_adds (s : Signer) (i : Nat) (copy : Bool) : (handOut s i copy).All (Adds s) := by
  have key : ∀ b, ((shiftBuf { s with completed := s.completed - 1 } i).andThen fun s _ => .ok s b : Res Signer (Option Bytes)).All (Adds s) :=
    fun b => All.from (.of rfl rfl : Adds s { s with completed := s.completed - 1 }) (All.adds (shiftBuf_adds _ _) fun t _ => Adds.refl t)
  unfold handOut
  repeat' split
  all_goals first | trivial | exact Adds.refl s | exact key _

theorem getSei_adds (s : Signer) (copy : Bool) (peek : Option Bytes) (sigs : List SigAnswer) : (getSei s copy peek sigs).All (Adds s) := by
  unfold getSei
  refine All.adds (completeSeis_adds sigs s) fun t _ => ?_
  split
  · exact Adds.refl t
  · split
    · split
      · trivial
      · exact Adds.refl t
      · split
        · exact handOut_adds t 0 copy
        · exact .of rfl rfl
    · exact handOut_adds t 0 copy

theorem getPrepend_adds (s : Signer) (a b : List SigAnswer) : (getPrepend s a b).All (Adds s) := by
  unfold getPrepend
  refine All.adds (completeSeis_adds a s) fun t _ => ?_
  split
  · exact Adds.refl t
  · split
    · trivial
    · split
      · exact Adds.refl t
      · refine Res.All.intoRoom _ ?_
        unfold getLatest
        refine All.adds (completeSeis_adds b t) fun u _ => ?_
        split
        · exact Adds.refl u
        · exact handOut_adds u _ true

/-- The call does not switch the public key off. -/
def _root_.SV.Spec.KeepsKey : SCall → Prop
  | .set (.addPublicKey b) => b = true
  | _ => True

/-- The call does not switch the lists of hashes on. -/
def _root_.SV.Spec.KeepsGopLevel : SCall → Prop
  | .set (.level l) => l ≠ 1
  | _ => True

/-- What a setter does to the decisions. -/
structure Switched (x : Setting) (s t : Signer) : Prop where
  signed : t.signed = s.signed
  key : KeepsKey (.set x) → s.e.addPublicKey = true → t.e.addPublicKey = true
  level : KeepsGopLevel (.set x) → s.e.frameLevel = false → t.e.frameLevel = false

theorem setting_switched (hs : Hashing) (s : Signer) (x : Setting) : (applySetting hs s x).All (Switched x s) := by
  cases x with
  | addPublicKey b => exact ⟨rfl, fun hk _ => hk, fun _ h => h⟩
  | level l =>
    unfold applySetting
    dsimp only
    split
    · exact ⟨rfl, fun _ h => h, fun _ h => h⟩
    · split
      · exact ⟨rfl, fun _ h => h, fun _ h => h⟩
      · refine ⟨rfl, fun _ h => h, fun hl _ => ?_⟩
        show (l == 1) = false
        have hl : l ≠ 1 := hl
        simpa using hl
  | _ =>
    unfold applySetting
    dsimp only
    repeat' split
    all_goals first | trivial | exact ⟨rfl, fun _ h => h, fun _ h => h⟩

/-- What a call does to a decision that it keeps. -/
theorem step_switches {hs : Hashing} {s t : Signer} {c : SCall} {o : Obs} {P : EncState → Prop} (hP : ∀ a b : EncState, a.switches = b.switches → P b → P a) (hp : Plainly c)
    (hset : ∀ x u v, c = .set x → Switched x u v → P u.e → P v.e) (h : P s.e) (hr : signStep hs s c = .ok (t, o)) :
    P t.e ∧ ∀ g, o.signed = some g → P g.e := by
  have key : ∀ x : Res Signer (Option Bytes), x.All (fun u => P u.e ∧ ∀ g, u.signed = some g → P g.e) → observe x = .ok (t, o) →
      P t.e ∧ ∀ g, o.signed = some g → P g.e := by
    intro x hx ho
    cases x with
    | ok u b => cases ho; exact hx
    | err u e => cases ho; exact hx
    | ub u => cases ho
  have fin : ∀ u : Signer, Adds { s with signed := none, got := [] } u → P u.e ∧ ∀ g, u.signed = some g → P g.e := by
    intro u hu
    refine ⟨hP _ _ hu.1 h, fun g hg => ?_⟩
    rcases hu.2 g hg with k | k
    · cases k
    · exact hP _ _ k h
  unfold signStep at hr
  refine key _ ?_ hr
  cases c with
  | nalu d ts l rc => exact Res.All.mono (All.adds (addNalu_adds hs _ d ts l rc) fun t _ => Adds.refl t) fin
  | getSei a b x => exact (getSei_adds _ a b x).mono fin
  | prepend a b => exact (getPrepend_adds _ a b).mono fin
  | set y =>
    have := setting_switched hs { s with signed := none, got := [] } y
    show ((applySetting hs { s with signed := none, got := [] } y).andThen fun s _ => .ok s none).All _
    cases hx : applySetting hs { s with signed := none, got := [] } y with
    | ub u => trivial
    | err u e =>
      rw [hx] at this
      exact ⟨hset y _ _ rfl this h, fun g hg => by rw [this.signed] at hg; cases hg⟩
    | ok u x =>
      rw [hx] at this
      exact ⟨hset y _ _ rfl this h, fun g hg => by rw [this.signed] at hg; cases hg⟩
  | endOfStream _ _ => cases hp
  | golden _ => cases hp
  | reset => cases hp

theorem run_switches {hs : Hashing} {P : EncState → Prop} (hP : ∀ a b : EncState, a.switches = b.switches → P b → P a) (cs : List SCall) : ∀ {s s' : Signer} {os : List Obs},
    (∀ c ∈ cs, Plainly c) → (∀ x u v, SCall.set x ∈ cs → Switched x u v → P u.e → P v.e) →
    P s.e → signRun hs s cs = .ok (s', os) → ∀ g ∈ os.filterMap Obs.signed, P g.e := by
  induction cs with
  | nil =>
    intro s s' os _ _ _ hr g hg
    unfold signRun at hr
    cases hr
    cases hg
  | cons c cs ih =>
    intro s s' os hc hk h hr g hg
    obtain ⟨t, o, os', h1, h2, rfl⟩ := signRun_cons hr
    obtain ⟨e1, e2⟩ := step_switches hP (hc c List.mem_cons_self) (fun x u v hx => hk x u v (by rw [← hx]; exact List.mem_cons_self)) h h1
    rw [List.filterMap_cons] at hg
    split at hg
    · exact ih (fun x hx => hc x (List.mem_cons_of_mem _ hx)) (fun x u v hx => hk x u v (List.mem_cons_of_mem _ hx)) e1 h2 g hg
    · next ho =>
      rcases List.mem_cons.1 hg with rfl | hg
      · exact e2 _ ho
      · exact ih (fun x hx => hc x (List.mem_cons_of_mem _ hx)) (fun x u v hx => hk x u v (List.mem_cons_of_mem _ hx)) e1 h2 g hg

theorem run_adds {hs : Hashing} (cs : List SCall) {s s' : Signer} {os : List Obs} (hc : ∀ c ∈ cs, Plainly c) (hk : ∀ c ∈ cs, KeepsKey c)
    (h : s.e.addPublicKey = true) (hr : signRun hs s cs = .ok (s', os)) : ∀ g ∈ os.filterMap Obs.signed, g.e.addPublicKey = true :=
  run_switches (P := fun e => e.addPublicKey = true) (fun _ _ e hb => (congrArg Prod.fst e).trans hb) cs hc
    (fun x _ _ hx hsw => hsw.key (hk _ hx)) h hr

/-- Setters sign nothing. -/
theorem set_signs_not {hs : Hashing} {s t : Signer} {x : Setting} {o : Obs} (hr : signStep hs s (.set x) = .ok (t, o)) : o.signed = none := by
  have := setting_switched hs { s with signed := none, got := [] } x
  unfold signStep at hr
  have hr : observe ((applySetting hs { s with signed := none, got := [] } x).andThen fun s _ => .ok s none) = .ok (t, o) := hr
  cases hx : applySetting hs { s with signed := none, got := [] } x with
  | ub u => rw [hx] at hr; cases hr
  | err u e => rw [hx] at hr this; cases hr; exact this.signed
  | ok u y => rw [hx] at hr this; cases hr; exact this.signed

/-- No lists of hashes after the level has been set to GOP. -/
theorem run_gopLevel {hs : Hashing} : ∀ (a b : List Setting) (cs : List SCall) {s s' : Signer} {os : List Obs},
    (∀ c ∈ (a ++ .level 0 :: b).map SCall.set ++ cs, Plainly c) → (∀ c ∈ b.map SCall.set ++ cs, KeepsGopLevel c) →
    signRun hs s ((a ++ .level 0 :: b).map SCall.set ++ cs) = .ok (s', os) → ∀ g ∈ os.filterMap Obs.signed, g.e.frameLevel = false := by
  intro a
  induction a with
  | nil =>
    intro b cs s s' os hc hk hr g hg
    obtain ⟨t, o, os', h1, h2, rfl⟩ := signRun_cons hr
    have ho := set_signs_not h1
    rw [List.filterMap_cons, ho] at hg
    have hl : t.e.frameLevel = false := by
      unfold signStep at h1
      cases h1
      rfl
    exact run_switches (P := fun e => e.frameLevel = false) (fun _ _ e hb => (congrArg Prod.snd e).trans hb) _ (fun x hx => hc x (List.mem_cons_of_mem _ hx))
      (fun x _ _ hx hsw => hsw.level (hk _ hx)) hl h2 g hg
  | cons _ a ih =>
    intro b cs s s' os hc hk hr g hg
    obtain ⟨t, o, os', h1, h2, rfl⟩ := signRun_cons hr
    rw [List.filterMap_cons, set_signs_not h1] at hg
    exact ih b cs (fun x hx => hc x (List.mem_cons_of_mem _ hx)) hk h2 g hg

end SV
