import Verif.Proofs.Piece
import Verif.Proofs.SignHist
/-! NAL units given for signing in parts. -/
namespace SV
open Spec

/-- The members that differ while a NAL unit is added in parts. -/
def Signer.w (c : Ctx) (n : Nalu) (l : Bool) (s : Signer) : Signer :=
  { s with secondary := c, lastNalu := n, lastIsLast := l }

def Res.mapS {α : Type} (f : Signer → Signer) : Res Signer α → Res Signer α
  | .ok s a => .ok (f s) a
  | .err s e => .err (f s) e
  | .ub u => .ub u

theorem mapS_andThen {α β : Type} (f : Signer → Signer) (r : Res Signer α) (g g' : Signer → α → Res Signer β)
    (h : ∀ s a, g' (f s) a = (g s a).mapS f) : (r.mapS f).andThen g' = (r.andThen g).mapS f := by
  cases r with
  | ok s a => exact h s a
  | err s e => rfl
  | ub u => rfl

variable (c : Ctx) (n : Nalu) (l : Bool)

theorem simplyHash_w (hs : Hashing) (s : Signer) (d : Bytes) :
    simplyHash hs (s.w c n l) d true = (simplyHash hs s d true).mapS (Signer.w c n l) := by
  simp only [simplyHash, if_true, hashData]
  show Res.ofOut _ (if d = [] then _ else Out.ok (hs.H s.e.oid d)) = _
  split <;> rfl

theorem hashAndAdd_w (hs : Hashing) (s : Signer) (m : Nalu) :
    hashAndAdd hs (s.w c n l) m true true = (hashAndAdd hs s m true true).mapS (Signer.w c n l) := by
  unfold hashAndAdd
  split
  · rfl
  · simp only [Bool.not_true, Bool.and_false, Bool.false_eq_true, if_false]
    have hO : ∀ r : Res Signer Unit, (r.mapS (Signer.w c n l)).onErr (fun s => { s with e := { s.e with hashList := none } }) =
        (r.onErr (fun s => { s with e := { s.e with hashList := none } })).mapS (Signer.w c n l) := by
      intro r; cases r <;> rfl
    rw [← hO]
    congr 1
    have hb : (s.w c n l).hasRef = s.hasRef := rfl
    rw [hb]
    rw [← mapS_andThen (Signer.w c n l) _ _ (fun s h =>
      let s := checkAndCopy { s with naluHash := h } h
      .ok (if m.gopSei then s else { s with e := { s.e with numNalus := s.e.numNalus + 1 } }) ())]
    · congr 1
      split
      · exact simplyHash_w c n l hs s _
      · split
        · unfold hashAndCopyToRef
          rw [simplyHash_w]
          exact mapS_andThen _ _ _ _ (fun s a => rfl)
        · unfold hashWithReference
          rw [simplyHash_w]
          refine mapS_andThen _ _ _ _ (fun t a => ?_)
          unfold hashData
          show Res.ofOut _ (if t.ref ++ a = [] then _ else Out.ok (hs.H t.e.oid (t.ref ++ a))) = _
          split <;> rfl
    · intro t h
      dsimp only
      cases m.gopSei <;> rfl

theorem generateSei_w (hs : Hashing) (s : Signer) (rc : Option Rc) :
    generateSei hs (s.w c n l) rc = (generateSei hs s rc).mapS (Signer.w c n l) := by
  unfold generateSei
  have h1 : (s.w c n l).opts = s.opts := rfl
  have h2 : (s.w c n l).encNow = s.encNow := rfl
  have h3 : (s.w c n l).idx = s.idx := rfl
  have h4 : (s.w c n l).codec = s.codec := rfl
  rw [h1, h2, h3, h4]
  split
  · rfl
  · dsimp only
    split
    · rfl
    · split
      · rfl
      · rfl
      · next fake _ =>
        have := hashAndAdd_w c n l hs { s with e := (seiStart s.opts s.encNow).2 } fake
        refine Eq.trans (congrArg (fun r => Res.andThen r _) this) (mapS_andThen (Signer.w c n l) _ _ _ ?_)
        intro t a
        cases rc <;> rfl

theorem addPayload_w (s : Signer) (p : SeiSlot) : addPayload (s.w c n l) p = (addPayload s p).mapS (Signer.w c n l) := by
  unfold addPayload
  have h3 : (s.w c n l).idx = s.idx := rfl
  have h4 : (s.w c n l).buf = s.buf := rfl
  rw [h3, h4]
  repeat' split
  all_goals rfl

theorem endOfGop_w (hs : Hashing) (s : Signer) (ts : Option Int64) (rc : Option Rc) :
    endOfGop hs (s.w c n l) ts rc = (endOfGop hs s ts rc).mapS (Signer.w c n l) := by
  unfold endOfGop
  have h1 : (s.w c n l).seiEnabled = s.seiEnabled := rfl
  have h2 : stamp (s.w c n l) ts = (stamp s ts).w c n l := by cases ts <;> rfl
  rw [h1, h2]
  split
  · dsimp only
    generalize stamp s ts = t
    have h3 : (t.w c n l).primary = t.primary := rfl
    have h4 : (t.w c n l).e = t.e := rfl
    rw [h3, h4]
    split
    · rfl
    · rfl
    · next x h _ =>
      have := generateSei_w c n l hs { t with primary := x, e := { t.e with gopHash := h } } rc
      refine Eq.trans (congrArg (fun r => Res.andThen r _) this) (mapS_andThen (Signer.w c n l) _ _ _ ?_)
      intro u p
      rw [addPayload_w]
      exact mapS_andThen _ _ _ _ (fun v a => rfl)
  · rfl

theorem countFrame_w (s : Signer) (m : Nalu) (b : Bool) :
    countFrame (s.w c n l) m b = (countFrame s m b).mapS (Signer.w c n l) := by
  unfold countFrame
  have h3 : (s.w c n l).frameCount = s.frameCount := rfl
  have h4 : (s.w c n l).recurrence = s.recurrence := rfl
  rw [h3, h4]
  split
  · dsimp only
    split
    · dsimp only
      split <;> rfl
    · rw [h3]
      split <;> rfl
  · rfl


/-! ### Parsing the first part -/

theorem parseHeader_append (c : Codec) (m rest : Bytes) (h : hdr c + 1 ≤ m.length) :
    parseHeader c (m ++ rest) = parseHeader c m := by
  cases c with
  | h264 =>
    match m, h with
    | [], h => simp [hdr] at h
    | [_], h => simp [hdr] at h
    | b0 :: b1 :: _, _ => rfl
  | h265 =>
    match m, h with
    | [], h => simp [hdr] at h
    | [_], h => simp [hdr] at h
    | [_, _], h => simp [hdr] at h
    | b0 :: b1 :: b2 :: _, _ => rfl

theorem body_append (d0 rest : Bytes) (h : 4 ≤ d0.length) : body (d0 ++ rest) = body d0 ++ rest := by
  match d0, h with
  | a :: b :: x :: d :: r, _ =>
    rw [← body_drop a b x d r]
    show body (a :: b :: x :: d :: (r ++ rest)) = _
    rw [← body_drop a b x d (r ++ rest)]
    have : (startCode a b x d).1 ≤ 4 := by
      unfold startCode
      repeat' split
      all_goals simp
    rw [show a :: b :: x :: d :: (r ++ rest) = (a :: b :: x :: d :: r) ++ rest from rfl, List.drop_append_of_le_length]
    simp only [List.length_cons]; omega

/-- Trailing zeros of the last part. -/
theorem trimmed_append (pre z : Bytes) (hz : ∃ b ∈ z, b ≠ 0) :
    ∃ k, trimmedLen z = .ok k ∧ 1 ≤ k ∧ k ≤ z.length ∧ trimmedLen (pre ++ z) = .ok (pre.length + k) := by
  obtain ⟨b, hb, hb0⟩ := hz
  have hnil : ∀ l : Bytes, b ∈ l → l.dropWhile (· == 0) ≠ [] := by
    intro l
    induction l with
    | nil => intro h; cases h
    | cons x l ih =>
      intro h
      by_cases hx : x = 0
      · subst hx
        have : b ∈ l := by
          rcases List.mem_cons.1 h with h | h
          · exact absurd h hb0
          · exact h
        simpa using ih this
      · rw [List.dropWhile_cons_of_neg (by simpa using hx)]; simp
  have hne := hnil z.reverse (List.mem_reverse.2 hb)
  have happ : (pre ++ z).reverse.dropWhile (· == 0) = z.reverse.dropWhile (· == 0) ++ pre.reverse := by
    rw [List.reverse_append, List.dropWhile_append]
    simp [hne]
  have hpos : (z.reverse.dropWhile (· == 0)).length ≠ 0 := by simpa using hne
  refine ⟨(z.reverse.dropWhile (· == 0)).length, ?_, by omega, ?_, ?_⟩
  · unfold trimmedLen; dsimp only; rw [if_neg hpos]
  · have := (List.dropWhile_suffix (· == 0) (l := z.reverse)).length_le
    simpa using this
  · unfold trimmedLen
    dsimp only
    rw [happ, List.length_append, List.length_reverse, if_neg (by omega), Nat.add_comm]

theorem parse_first (codec : Codec) (d0 rest z : Bytes) (m : Nalu) (h4 : 4 ≤ d0.length) (hh : hdr codec + 1 ≤ (body d0).length)
    (hz : ∃ b ∈ z, b ≠ 0) (hp : parseNalu (d0 ++ rest ++ z) codec true false = .ok m) (hs : m.ntype ≠ .sei) :
    ∃ k, trimmedLen z = .ok k ∧ 1 ≤ k ∧ k ≤ z.length ∧
      parseNalu d0 codec false false = .ok { m with hashable := body d0 } ∧
      m.hashable = body d0 ++ rest ++ z.take k ∧ m.gopSei = false := by
  obtain ⟨k, k1, k2, k3, k4⟩ := trimmed_append (d0 ++ rest) z hz
  refine ⟨k, k1, k2, k3, ?_⟩
  match d0, h4 with
  | a :: b :: x :: d :: r, h4 =>
    have hsc : (startCode a b x d).1 ≤ 4 := by
      unfold startCode
      repeat' split
      all_goals simp
    have hb : (a :: b :: x :: d :: (r ++ (rest ++ z))).drop (startCode a b x d).1 = body (a :: b :: x :: d :: r) ++ (rest ++ z) := by
      rw [body_drop, ← body_append _ _ h4]; rfl
    have hp : parseNalu (a :: b :: x :: d :: (r ++ (rest ++ z))) codec true false = .ok m := by
      rw [← hp]; simp
    have k4 : trimmedLen (a :: b :: x :: d :: (r ++ (rest ++ z))) = .ok ((a :: b :: x :: d :: r ++ rest).length + k) := by
      rw [← k4]; simp
    simp only [parseNalu, if_true] at hp
    rw [hb, parseHeader_append codec _ _ hh, k4] at hp
    simp only [parseNalu]
    rw [body_drop]
    cases hq : parseHeader codec (body (a :: b :: x :: d :: r)) with
    | err e => rw [hq] at hp; simp at hp
    | ub e => rw [hq] at hp; simp at hp
    | ok y =>
      obtain ⟨t, v, prim⟩ := y
      rw [hq] at hp
      simp only [Out.bind_ok] at hp ⊢
      by_cases ht : t = .sei
      · rw [if_pos ht] at hp
        have := (parseSei_ntype codec false _ m _ _ hp).1
        exact absurd (this.trans ht) hs
      · rw [if_neg ht] at hp
        simp only [Bool.false_eq_true, if_false, Out.bind_ok]
        rw [if_neg ht]
        cases hp
        have hl : (body (a :: b :: x :: d :: r)).length = (a :: b :: x :: d :: r).length - (startCode a b x d).1 := by
          rw [← body_drop, List.length_drop]
        refine ⟨?_, ?_, rfl⟩
        · congr 2
          apply List.take_of_length_le
          rw [hl]; exact Nat.le_refl _
        · dsimp only
          rw [← List.append_assoc, List.take_append]
          have h1 : (a :: b :: x :: d :: r ++ rest).length + k - (startCode a b x d).1 =
              (body (a :: b :: x :: d :: r) ++ rest).length + k := by
            rw [List.length_append, List.length_append, hl]
            have : (startCode a b x d).1 ≤ (a :: b :: x :: d :: r).length := by simp only [List.length_cons]; omega
            omega
          rw [h1, List.take_of_length_le (by omega), Nat.add_sub_cancel_left]

/-! ### The calls -/

theorem signStep_nalu (hs : Hashing) (s : Signer) (d : Bytes) (ts : Option Int64) (l : Bool) (rc : Option Rc) :
    signStep hs s (.nalu d ts l rc) = observe (plain (addNalu hs { s with signed := none, got := [] } d ts l rc)) := rfl

/-- No SEI has to be fetched first and there is a key. -/
structure Prepared (s : Signer) : Prop where
  plugin : s.plugin = true
  free : (!s.avoidCheck && decide (s.completed > 0)) = false

theorem Prepared.ok {s : Signer} (h : Prepared s) : prepare s = .ok { s with started := true } () := by
  unfold prepare
  rw [if_neg (by rw [h.plugin]; decide)]
  dsimp only
  exact if_neg (by rw [h.free]; decide)

theorem prepare_ok {s s' : Signer} {u : Unit} (h : prepare s = .ok s' u) : Prepared s ∧ s' = { s with started := true } := by
  unfold prepare at h
  split at h
  · cases h
  · next h1 =>
    dsimp only at h
    split at h
    · cases h
    · next h2 => cases h; exact ⟨⟨by simpa using h1, by simpa using h2⟩, rfl⟩

/-- A session in the middle of a NAL unit; `b` is what has been hashed. -/
structure Midway (s : Signer) (m : Nalu) (b : Bytes) (t : Signer) : Prop where
  eq : t = ({ s with started := true, signed := none, got := [] } : Signer).w t.secondary m false
  open_ : m.isHashable = true → t.secondary = .open b

theorem countFrame_part (s : Signer) (m : Nalu) : countFrame s m false = .ok s () := by
  unfold countFrame; rw [Bool.and_false]; rfl

/-- A part that is not the last one leaves everything else alone. -/
theorem step_mid (hs : Hashing) (s t : Signer) (m : Nalu) (b d : Bytes) (ts : Option Int64) (rc : Option Rc)
    (h : Midway s m b t) (hv : ¬ m.valid < 0) (hp : Prepared s) (hd : d ≠ []) :
    ∃ t', signStep hs t (.nalu d ts false rc) = .ok (t', { pending := s.idx }) ∧ Midway s m (b ++ d) t' := by
  obtain ⟨h1, h2⟩ := h
  generalize t.secondary = c at h1 h2
  subst h1
  simp only [signStep_nalu]
  unfold addNalu
  rw [if_neg hd]
  unfold nextPart
  rw [if_neg (by simp [Signer.w])]
  simp only [Bool.false_eq_true, if_false, List.take_length, Res.andThen_ok]
  unfold addParsed
  rw [Prepared.ok (by exact ⟨hp.plugin, hp.free⟩)]
  simp only [Res.andThen_ok]
  rw [if_neg (by exact hv), countFrame_part]
  simp only [Res.andThen_ok, Bool.and_false, Bool.false_eq_true, if_false]
  unfold hashAndAdd
  by_cases hh : m.isHashable = true
  · rw [if_neg (by simp [Signer.w, hh])]
    simp only [Bool.false_and, Bool.false_eq_true, if_false, Bool.not_false, if_true, updateHash, Signer.w, h2 hh, Ctx.update, hd,
      Res.onErr_ok, Res.andThen_ok, plain, observe]
    exact ⟨_, rfl, rfl, fun _ => rfl⟩
  · rw [if_pos (by simp [Signer.w, hh])]
    simp only [Res.andThen_ok, plain, observe]
    exact ⟨_, rfl, rfl, fun hx => absurd hx hh⟩

theorem step_first (hs : Hashing) (s : Signer) (m : Nalu) (d : Bytes) (ts : Option Int64) (rc : Option Rc)
    (hl : s.lastIsLast = true) (hm : parseNalu d s.codec false false = .ok m) (hv : ¬ m.valid < 0) (hp : Prepared s)
    (hd : d ≠ []) (hh : m.hashable ≠ []) :
    ∃ t', signStep hs s (.nalu d ts false rc) = .ok (t', { pending := s.idx }) ∧ Midway s m m.hashable t' := by
  simp only [signStep_nalu]
  unfold addNalu
  rw [if_neg hd]
  unfold nextPart
  rw [if_pos hl]
  dsimp only
  rw [hm]
  simp only [Res.andThen_ok]
  unfold addParsed
  rw [Prepared.ok (by exact ⟨hp.plugin, hp.free⟩)]
  simp only [Res.andThen_ok]
  rw [if_neg hv, countFrame_part]
  simp only [Res.andThen_ok, Bool.and_false, Bool.false_eq_true, if_false]
  unfold hashAndAdd
  by_cases hx : m.isHashable = true
  · rw [if_neg (by simp [hx])]
    simp only [Bool.not_false, Bool.and_self, if_true, updateHash, Ctx.update, hh, if_false, List.nil_append,
      Res.onErr_ok, Res.andThen_ok, plain, observe]
    exact ⟨_, rfl, rfl, fun _ => rfl⟩
  · rw [if_pos (by simp [hx])]
    simp only [Res.andThen_ok, plain, observe]
    exact ⟨_, rfl, rfl, fun h => absurd h hx⟩

/-- Hashing the last part gives what hashing the whole would have given. -/
theorem hash_last (hs : Hashing) (s t : Signer) (m : Nalu) (b z : Bytes) (l : Nalu) (hz : z ≠ []) (u : Unit) (c : Ctx)
    (hb : m.isHashable = true → c = .open b) (hg : m.gopSei = false) (hm : m.hashable = b ++ z)
    (h : hashAndAdd hs s m true true = .ok t u) :
    ∃ c', hashAndAdd hs (s.w c l true) { m with hashable := z } false true = .ok (t.w c' l true) u := by
  unfold hashAndAdd at h ⊢
  by_cases hh : m.isHashable = true
  · rw [if_neg (by simp [hh])] at h
    rw [if_neg (by simp [hh])]
    have hc := hb hh
    subst hc
    have hne : b ++ z ≠ [] := by simp [hz]
    simp only [Bool.not_true, Bool.and_false, Bool.false_eq_true, if_false, hg] at h ⊢
    rw [Res.onErr_eq_ok] at h
    have key : ∀ s : Signer, simplyHash hs (s.w (.open b) l true) z false = .ok (s.w .done l true) (hs.H s.e.oid (b ++ z)) := by
      intro s
      simp [simplyHash, updateHash, Signer.w, Ctx.update, hz, Ctx.final]
    have key2 : ∀ s : Signer, simplyHash hs s m.hashable true = .ok s (hs.H s.e.oid (b ++ z)) := by
      intro s
      simp [simplyHash, hashData, hm, hz]
    refine ⟨.done, ?_⟩
    rw [Res.onErr_eq_ok]
    have hr : (s.w (.open b) l true).hasRef = s.hasRef := rfl
    rw [hr]
    unfold hashAndCopyToRef hashWithReference at h ⊢
    rw [key2] at h
    rw [key]
    by_cases hf : (m.firstInGop && !s.hasRef) = true
    · rw [if_pos hf] at h ⊢
      simp only [Res.andThen_ok] at h ⊢
      cases h
      rfl
    · rw [if_neg hf] at h ⊢
      simp only [Res.andThen_ok] at h ⊢
      have he : (s.w .done l true).e = s.e ∧ (s.w .done l true).ref = s.ref := ⟨rfl, rfl⟩
      rw [he.1, he.2]
      cases hd : hashData (hs.H s.e.oid) (s.ref ++ hs.H s.e.oid (b ++ z)) with
      | ok v =>
        rw [hd] at h
        simp only [Res.ofOut_ok, Res.andThen_ok] at h ⊢
        cases h
        rfl
      | err e => rw [hd] at h; cases h
      | ub e => rw [hd] at h; cases h
  · rw [if_pos (by simp [hh])] at h
    cases h
    rw [if_pos (by simp [hh])]
    exact ⟨c, rfl⟩

theorem mapS_ok {α : Type} {f : Signer → Signer} {r : Res Signer α} {t : Signer} {a : α} (h : r = .ok t a) : r.mapS f = .ok (f t) a := by
  rw [h]; rfl

/-- The last part. -/
theorem step_last (hs : Hashing) (s t t' : Signer) (m : Nalu) (b b0 z whole : Bytes) (k : Nat) (ts : Option Int64) (rc : Option Rc) (o : Obs)
    (h : Midway s { m with hashable := b } b0 t) (hl : s.lastIsLast = true) (hw : whole ≠ [])
    (hm : parseNalu whole s.codec true false = .ok m) (hz : trimmedLen z = .ok k) (h1 : 1 ≤ k) (hzn : z ≠ [])
    (hh : m.hashable = b0 ++ z.take k) (hg : m.gopSei = false)
    (hs1 : signStep hs s (.nalu whole ts true rc) = .ok (t', o)) (ho : o.rc = none) :
    ∃ c n, signStep hs t (.nalu z ts true rc) = .ok (t'.w c n true, o) := by
  obtain ⟨e1, e2⟩ := h
  generalize t.secondary = c at e1 e2
  subst e1
  simp only [signStep_nalu] at hs1 ⊢
  have hzk : z.take k ≠ [] := by
    cases z with
    | nil => exact absurd rfl hzn
    | cons x xs => rw [show k = k - 1 + 1 by omega]; simp
  -- the whole
  have hs2 : addNalu hs { s with signed := none, got := [] } whole ts true rc = .ok t' () ∧
      o = ⟨none, none, t'.idx, t'.signed, t'.got⟩ := by
    cases hr : addNalu hs { s with signed := none, got := [] } whole ts true rc with
    | ok u a => rw [hr] at hs1; cases hs1; exact ⟨rfl, rfl⟩
    | err u a => rw [hr] at hs1; cases hs1; cases ho
    | ub u => rw [hr] at hs1; cases hs1
  obtain ⟨hs2, rfl⟩ := hs2
  clear hs1
  unfold addNalu at hs2
  rw [if_neg hw] at hs2
  unfold nextPart at hs2
  rw [if_pos hl] at hs2
  dsimp only at hs2
  rw [hm] at hs2
  simp only [Res.andThen_ok] at hs2
  unfold addParsed at hs2
  obtain ⟨u1, a1, b1, hs2⟩ := Res.andThen_eq_ok hs2
  obtain ⟨hp, rfl⟩ := prepare_ok b1
  split at hs2
  · cases hs2
  next hv =>
  obtain ⟨u2, a2, b2, hs2⟩ := Res.andThen_eq_ok hs2
  obtain ⟨u3, a3, b3, hs2⟩ := Res.andThen_eq_ok hs2
  obtain ⟨u4, a4, b4, hs2⟩ := Res.andThen_eq_ok hs2
  -- the part
  unfold addNalu
  rw [if_neg hzn]
  unfold nextPart
  rw [if_neg (by simp [Signer.w])]
  simp only [if_true, hz, Res.andThen_ok]
  unfold addParsed
  rw [Prepared.ok (by exact ⟨hp.plugin, hp.free⟩)]
  simp only [Res.andThen_ok]
  rw [if_neg (by exact hv)]
  have c2 := mapS_ok (f := Signer.w c { m with hashable := b } true) b2
  rw [← countFrame_w] at c2
  have c2' : countFrame { ({ ({ s with started := true, signed := none, got := [] } : Signer).w c { m with hashable := b } false with
      signed := none, got := [], lastIsLast := true } : Signer) with started := true } { m with hashable := z.take k } true = _ := c2
  have c3 : (if (m.firstInGop && true) = true then endOfGop hs (u2.w c { m with hashable := b } true) ts rc
      else .ok (u2.w c { m with hashable := b } true) ()) = .ok (u3.w c { m with hashable := b } true) a3 := by
    split at b3
    · next hf => rw [if_pos hf, endOfGop_w]; exact mapS_ok b3
    · next hf => rw [if_neg hf]; cases b3; rfl
  obtain ⟨c', c4⟩ := hash_last hs u3 u4 m b0 (z.take k) { m with hashable := b } hzk a4 c (fun hx => e2 hx) hg hh b4
  refine ⟨c', { m with hashable := b }, ?_⟩
  have : ∀ r, r = Res.ok (t'.w c' { m with hashable := b } true) () → observe (plain r) =
      .ok (t'.w c' { m with hashable := b } true, ⟨none, none, t'.idx, t'.signed, t'.got⟩) := by
    intro r hr; rw [hr]; rfl
  apply this
  refine Eq.trans (congrArg (fun r => Res.andThen r _) c2') ?_
  simp only [Res.andThen_ok]
  refine Eq.trans (congrArg (fun r => Res.andThen r _) c3) ?_
  simp only [Res.andThen_ok]
  refine Eq.trans (congrArg (fun r => Res.andThen r _) c4) ?_
  simp only [Res.andThen_ok]
  cases hs2
  cases m.firstInGop <;> rfl

theorem signRun_join (hs : Hashing) (a b : List SCall) : ∀ (s t u : Signer) (x y : List Obs),
    signRun hs s a = .ok (t, x) → signRun hs t b = .ok (u, y) → signRun hs s (a ++ b) = .ok (u, x ++ y) := by
  induction a with
  | nil => intro s t u x y h g; cases h; exact g
  | cons c a ih =>
    intro s t u x y h g
    obtain ⟨v, o, os, h1, h2, rfl⟩ := signRun_cons h
    simp only [List.cons_append, signRun, h1, Out.bind_ok, ih v t u os y h2 g]

/-- All parts but the first and the last. -/
theorem run_mids (hs : Hashing) (s : Signer) (m : Nalu) (ts : Option Int64) (rc : Option Rc) (hv : ¬ m.valid < 0) (hp : Prepared s)
    (mids : List Bytes) : ∀ (t : Signer) (b : Bytes), Midway s m b t → (∀ d ∈ mids, d ≠ []) →
    ∃ t' os, signRun hs t (mids.map fun d => .nalu d ts false rc) = .ok (t', os) ∧ Midway s m (b ++ mids.flatten) t' ∧
      ∀ o ∈ os, o = { pending := s.idx } := by
  induction mids with
  | nil => intro t b h _; exact ⟨t, [], rfl, by simpa using h, by simp⟩
  | cons d mids ih =>
    intro t b h hd
    obtain ⟨t1, h1, h2⟩ := step_mid hs s t m b d ts rc h hv hp (hd d List.mem_cons_self)
    obtain ⟨t2, os, h3, h4, h5⟩ := ih t1 (b ++ d) h2 (fun x hx => hd x (List.mem_cons_of_mem _ hx))
    refine ⟨t2, { pending := s.idx } :: os, ?_, by simpa using h4, ?_⟩
    · simp only [List.map_cons, signRun, h1, Out.bind_ok, h3]
    · intro o ho
      rcases List.mem_cons.1 ho with ho | ho
      · exact ho
      · exact h5 o ho

end SV
