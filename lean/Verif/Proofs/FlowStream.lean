import Verif.Proofs.FlowSigner
import Verif.Spec.Flow
import Verif.Props.AuthUnsigned
import Verif.Props.SignHist
/-! From single calls to a whole stream. -/
namespace SV
open Spec
namespace Validator

variable {Γ : Scene}

/-- The hash of the first NAL unit of GOP number `k - 1`. -/
def firstHash (Γ : Scene) (gs : List (List Piece)) (k : Nat) : Bytes := ((gs[k - 1]?.bind List.head?).map fun p => Γ.H p.bytes).getD []

/-- What a validator needs of SEI number `k`. -/
structure SeiOf (Γ : Scene) (gs : List (List Piece)) (k : Nat) (b : Bytes) : Prop where
  sound : b ≠ [] ∧ ∃ i n m gop, parseNalu b Γ.codec true true = .ok n ∧ IsSei Γ i n m ∧ gs[k]? = some gop ∧
    i.counter = UInt32.ofNat (Γ.base + k + 1) ∧ (k ≠ 0 → i.linked = firstHash Γ gs k) ∧
    (∃ r0, i.gopHash = Γ.H (pieceHashes Γ.H r0 gop).flatten ∧
      ∀ cap, Γ.full = some cap → gop.length * Γ.size ≤ cap → i.list = (pieceHashes Γ.H r0 gop).flatten) ∧ i.num = UInt16.ofNat gop.length ∧
    (k = 0 → (Γ.sent = true → TellsFirst Γ n.tlvMem n.tlvSize) ∧ n.reserved &&& 0x30 ≠ 0)

/-- The state of a validator after the protected NAL units `n` and `k` SEIs; with `ok` everything has been found good so far. -/
structure At (Γ : Scene) (ok : Bool) (gs : List (List Piece)) (n : List Piece) (k : Nat) (v : Validator) : Prop where
  le : (gs.take k).flatten.length ≤ n.length
  early : k = 0 → Early Γ n v
  sync : k ≠ 0 → InSync Γ ok (n.drop (gs.take k).flatten.length) (UInt32.ofNat (Γ.base + k)) (firstHash Γ gs k) v

/-- Every GOP starts with the first slice of an intra picture and has no other. -/
def Started (g : List Piece) : Prop := ∃ p t, g = p :: t ∧ p.first = true ∧ ∀ q ∈ t, q.first = false

theorem started_of {g : List Piece} (h : (g.filter (·.first)).length ≤ 1) (hp : ∃ p l, g = p :: l ∧ p.first = true) : Started g := by
  obtain ⟨p, t, rfl, hf⟩ := hp
  refine ⟨p, t, rfl, hf, fun q hq => ?_⟩
  rw [List.filter_cons_of_pos hf, List.length_cons] at h
  have h' : (t.filter (fun x : Piece => x.first)).length + 1 ≤ 1 := h
  have : t.filter (fun x : Piece => x.first) = [] := List.eq_nil_of_length_eq_zero (Nat.le_zero.1 (Nat.le_of_succ_le_succ h'))
  have := List.filter_eq_nil_iff.1 this q hq
  simpa using this

theorem gops_started {ps : List Piece} (h : ∀ p t, ps = p :: t → p.first = true) :
    (∀ g ∈ (gops ps).1, Started g) ∧ ((gops ps).2 = [] ∨ Started (gops ps).2) := by
  obtain ⟨h1, h2, h3, h4⟩ := gops_partition ps
  have key : ∀ (k : Nat) (g : List Piece), ((gops ps).1 ++ [(gops ps).2])[k]? = some g → g ≠ [] → ∃ (p : Piece) (l : List Piece), g = p :: l ∧ p.first = true := by
    intro k g hg hne
    by_cases hk : 1 ≤ k
    · exact h4 k hk g hg
    · have : k = 0 := by omega
      subst this
      cases hc : (gops ps).1 with
      | nil =>
        rw [hc] at hg h1
        cases hg
        cases hq : (gops ps).2 with
        | nil => exact absurd hq hne
        | cons p t => rw [hq] at h1; exact ⟨p, t, rfl, h p t h1.symm⟩
      | cons g' gs =>
        rw [hc] at hg h1
        cases hg
        cases g with
        | nil => exact absurd rfl hne
        | cons p t => exact ⟨p, t, rfl, h p _ (by rw [← h1]; rfl)⟩
  constructor
  · intro g hg
    have hone := h2 g hg
    refine started_of (by omega) ?_
    obtain ⟨k, hk⟩ := List.getElem?_of_mem hg
    refine key k g (by rw [List.getElem?_append_left (List.getElem?_eq_some_iff.1 hk).1]; exact hk) ?_
    rintro rfl
    cases hone
  · by_cases hne : (gops ps).2 = []
    · exact .inl hne
    · refine .inr (started_of h3 (key (gops ps).1.length _ ?_ hne))
      rw [List.getElem?_append_right (Nat.le_refl _), Nat.sub_self]; rfl

theorem trimZeros_ne {b : Bytes} (h : ∃ x ∈ b, x ≠ 0) : trimZeros b ≠ [] := by
  obtain ⟨x, hx, h0⟩ := h
  unfold trimZeros
  intro hc
  rw [List.reverse_eq_nil_iff] at hc
  have key : ∀ l : Bytes, l.dropWhile (· == 0) = [] → ∀ y ∈ l, y = 0 := by
    intro l
    induction l with
    | nil => intro _ y hy; cases hy
    | cons a l ih =>
      intro hl y hy
      rw [List.dropWhile_cons] at hl
      split at hl
      · next ha =>
        rcases List.mem_cons.1 hy with rfl | hy
        · simpa using ha
        · exact ih hl y hy
      · cases hl
  exact h0 (key _ hc x (List.mem_reverse.2 hx))

/-- A NAL unit of the stream. -/
theorem at_nalu (hΓ : Γ.Ok) {ok : Bool} {gs : List (List Piece)} {n : List Piece} {k : Nat} {v : Validator} (h : At Γ ok gs n k v) {d : Bytes} {ts : Option Int64}
    (ho : Ordinary Γ.codec d) :
    ∃ v' r, v.add Γ.env d = .ok v' r ∧ At Γ ok gs (n ++ ((StreamItem.nalu d ts).piece Γ.codec).toList) k v' ∧
      ∀ p, r = some p → k = 0 ∧ p.latest.auth = .notSigned ∧ p.acc.auth = .notSigned := by
  have hd := ho.some
  obtain ⟨m, hp, hs⟩ := ho.reads
  obtain ⟨hg, -⟩ := parseNalu_unsigned hd hp
  obtain ⟨htl, hgo⟩ := hg hs
  have hpc := parse_piece d Γ.codec true m hd hp
  by_cases hP : Protected Γ.codec ((body d).getD 0 0) ((body d).getD 1 0)
  · obtain ⟨h1, h2, h3, h4, h5⟩ := hpc.1 hP
    have hv : m.valid = 1 := by
      rcases h5 with h5 | h5
      · exact h5.1
      · exact absurd (ho.legal hP) h5.2
    have e : (StreamItem.nalu d ts).piece Γ.codec =
        some ⟨decide (IntraType Γ.codec ((body d).getD 0 0) ((body d).getD 1 0) ∧ 128 ≤ (sliceByte Γ.codec d).toNat), trimZeros (body d), ts⟩ := by
      simp only [StreamItem.piece, Spec.piece, if_pos hP]
    rw [e]
    generalize hpe : (⟨decide (IntraType Γ.codec ((body d).getD 0 0) ((body d).getD 1 0) ∧ 128 ≤ (sliceByte Γ.codec d).toNat), trimZeros (body d), ts⟩ : Piece) = p
    have hb : m.hashable = p.bytes := by rw [h3, ← hpe]
    have hip : IsPiece p m := ⟨hv, h1, hs, hgo, by rw [h4, ← hpe], htl⟩
    have hne : p.bytes ≠ [] := by
      rw [← hpe]
      exact trimZeros_ne (protected_nonzero _ _ hP)
    by_cases hk : k = 0
    · obtain ⟨v', r, a1, a2, a3⟩ := early_piece hΓ (h.early hk) hd hp hip hb hne
      refine ⟨v', r, a1, ⟨?_, fun _ => a2, fun hc => absurd hk hc⟩, fun p hr => ⟨hk, a3 p hr⟩⟩
      have := h.le
      rw [List.length_append]; omega
    · obtain ⟨v', a1, a2⟩ := sync_piece hΓ (h.sync hk) hd hp hip hb hne
      refine ⟨v', none, a1, ⟨?_, fun hc => absurd hc hk, fun _ => ?_⟩, fun p hr => by cases hr⟩
      · have := h.le
        rw [List.length_append]; omega
      · rw [Option.toList_some, List.drop_append_of_le_length h.le]; exact a2
  · have e : (StreamItem.nalu d ts).piece Γ.codec = none := by
      simp only [StreamItem.piece, Spec.piece, if_neg hP]
    rw [e]
    simp only [Option.toList_none, List.append_nil]
    have hsk : Skips m := by
      refine ⟨?_, .inr ?_, hs, htl, (hpc.2 hP).2⟩
      · rcases parseNalu_valid hd hp with e | e <;> rw [e] <;> decide
      · cases hh : m.isHashable with
        | false => rfl
        | true =>
          have := ((hpc.2 hP).1 hh).2
          rw [hs] at this; cases this
    by_cases hk : k = 0
    · obtain ⟨v', r, a1, a2, a3⟩ := early_skip hΓ (h.early hk) hd hp hsk hgo
      exact ⟨v', r, a1, ⟨h.le, fun _ => a2, fun hc => absurd hk hc⟩, fun p hr => ⟨hk, a3 p hr⟩⟩
    · obtain ⟨v', a1, a2⟩ := sync_skip (h.sync hk) hd hp hsk
      exact ⟨v', none, a1, ⟨h.le, fun hc => absurd hc hk, fun _ => a2⟩, fun p hr => by cases hr⟩

/-- A SEI of the stream. -/
theorem at_sei (hΓ : Γ.Ok) {gs : List (List Piece)} {cur n : List Piece} {k : Nat} {v : Validator} (h : At Γ true gs n k v) {b : Bytes}
    (hs : SeiOf Γ gs k b) (hgs : ∀ g ∈ gs, Started g) (hcur : cur = [] ∨ Started cur) (hn : n <+: gs.flatten ++ cur)
    (hle : (gs.take (k + 1)).flatten.length ≤ n.length) :
    ∃ v' r gop, v.add Γ.env b = .ok v' (some r) ∧ At Γ true gs n (k + 1) v' ∧ gs[k]? = some gop ∧ AllGood gop.length (n.length - (gs.take (k + 1)).flatten.length) r := by
  obtain ⟨hb, i, m, m', gop, hp, hsei, hgop, hcnt, hlink, ⟨rf, hrf, -⟩, hnum, hfirst⟩ := hs.sound
  have hhash : ∃ r0, i.gopHash = Γ.H (pieceHashes Γ.H r0 gop).flatten := ⟨rf, hrf⟩
  obtain ⟨hlt, hge⟩ := List.getElem?_eq_some_iff.1 hgop
  have htake : gs.take (k + 1) = gs.take k ++ [gop] := by rw [List.take_add_one, hgop]; rfl
  have hflat : (gs.take (k + 1)).flatten = (gs.take k).flatten ++ gop := by rw [htake, List.flatten_append]; simp
  obtain ⟨p, t, rfl, hpf, hto⟩ := hgs gop (List.mem_of_getElem? hgop)
  have hall : gs.flatten = (gs.take (k + 1)).flatten ++ (gs.drop (k + 1)).flatten := by rw [← List.flatten_append, List.take_append_drop]
  have hpre : (gs.take (k + 1)).flatten <+: n := by
    refine List.prefix_of_prefix_length_le ?_ hn hle
    rw [hall, List.append_assoc]; exact List.prefix_append _ _
  obtain ⟨rest, hrest⟩ := hpre
  have hnext : ∀ q u, rest = q :: u → q.first = true := by
    rintro q u rfl
    rw [← hrest, hall, List.append_assoc] at hn
    have hr := (List.prefix_append_right_inj _).1 hn
    obtain ⟨w, hw⟩ := hr
    cases hdr : gs.drop (k + 1) with
    | cons g gs' =>
      obtain ⟨p', t', rfl, hpf', -⟩ := hgs g (List.mem_of_mem_drop (by rw [hdr]; exact List.mem_cons_self))
      rw [hdr] at hw
      simp at hw
      rw [hw.1]; exact hpf'
    | nil =>
      rw [hdr] at hw
      rcases hcur with rfl | ⟨p', t', rfl, hpf', -⟩
      · simp at hw
      · simp at hw
        rw [hw.1]; exact hpf'
  have hnl : n.length = (gs.take (k + 1)).flatten.length + rest.length := by rw [← hrest, List.length_append]
  have hq : n.drop (gs.take k).flatten.length = p :: t ++ rest := by
    rw [← hrest, hflat, List.append_assoc, List.drop_left]
  have hrd : n.drop (gs.take (k + 1)).flatten.length = rest := by rw [← hrest, List.drop_left]
  have hnum' : i.num.toNat = (t.length + 1) % 65536 := by rw [hnum]; simp
  have hnle : i.num.toNat ≤ t.length + 1 := by rw [hnum']; exact Nat.mod_le _ _
  have hfh : firstHash Γ gs (k + 1) = Γ.H p.bytes := by
    unfold firstHash
    rw [Nat.add_sub_cancel, hgop]; rfl
  have fin : ∀ v' r, InSync Γ true rest i.counter (Γ.H p.bytes) v' → GoodReport true i (t.length + 1) rest.length r →
      At Γ true gs n (k + 1) v' ∧ AllGood (p :: t).length (n.length - (gs.take (k + 1)).flatten.length) r := by
    intro v' r h1 h2
    refine ⟨⟨hle, fun hc => absurd hc (Nat.succ_ne_zero k), fun _ => ?_⟩, ?_⟩
    · rw [hrd, hfh, ← Nat.add_assoc, ← hcnt]; exact h1
    · have : n.length - (gs.take (k + 1)).flatten.length = rest.length := by omega
      rw [this]
      exact ⟨h2.auth, h2.acc rfl, h2.key, by rw [h2.expected, hnum']; rfl, h2.received, h2.pending, h2.marks⟩
  by_cases hk : k = 0
  · subst hk
    have he : Early Γ (p :: t ++ rest) v := by
      rw [← hq]; exact h.early rfl
    obtain ⟨f1, f2⟩ := hfirst rfl
    obtain ⟨v', r, a1, a2, a3⟩ := early_sei hΓ he hb hp hsei f1 f2 hpf hto hnext (hΓ.over.imp_left fun e => by rw [hcnt, e]; rfl) hhash hnle
    obtain ⟨b1, b2⟩ := fin v' r a2 a3
    exact ⟨v', r, _, a1, b1, hgop, b2⟩
  · have he := h.sync hk
    rw [hq] at he
    obtain ⟨v', r, a1, a2, a3⟩ := sync_sei hΓ he hb hp hsei hpf hto hnext (by rw [hcnt, UInt32.ofNat_add]; rfl) (hlink hk) hhash hnle
    obtain ⟨b1, b2⟩ := fin v' r a2 a3
    exact ⟨v', r, _, a1, b1, hgop, b2⟩

theorem authRun_ok {env : AuthEnv} {v v' w : Validator} {d : Bytes} {r : Option Report} {cs : List AuthCall} {os : List AObs}
    (h : v.add env d = .ok v' r) (g : authRun env v' cs = .ok (w, os)) : authRun env v (.nalu d :: cs) = .ok (w, ⟨none, r⟩ :: os) := by
  have : authStep env v (.nalu d) = .ok (v', ⟨none, r⟩) := by
    simp only [authStep, authCall, h]
  unfold authRun
  rw [this]
  simp only [Out.bind_ok]
  rw [g]
  simp only [Out.bind_ok]

/-- The rest of a stream. -/
theorem flow_run (hΓ : Γ.Ok) {gs : List (List Piece)} {cur : List Piece} (hgs : ∀ g ∈ gs, Started g) (hcur : cur = [] ∨ Started cur) :
    ∀ (st a : List StreamItem) (v : Validator), At Γ true gs (a.filterMap (StreamItem.piece Γ.codec)) (a.filterMap StreamItem.sei?).length v →
      (∀ d ts, StreamItem.nalu d ts ∈ st → Ordinary Γ.codec d) →
      (∀ j b, ((a ++ st).filterMap StreamItem.sei?)[j]? = some b → SeiOf Γ gs j b) →
      (a ++ st).filterMap (StreamItem.piece Γ.codec) <+: gs.flatten ++ cur →
      (∀ x b c, a ++ st = x ++ .sei b :: c →
        (gs.take ((x.filterMap StreamItem.sei?).length + 1)).flatten.length ≤ (x.filterMap (StreamItem.piece Γ.codec)).length) →
      ∃ v' os, authRun Γ.env v (st.map fun x => .nalu x.bytes) = .ok (v', os) ∧
        At Γ true gs ((a ++ st).filterMap (StreamItem.piece Γ.codec)) ((a ++ st).filterMap StreamItem.sei?).length v' ∧
        Confirmed Γ.codec gs (a.filterMap (StreamItem.piece Γ.codec)).length (a.filterMap StreamItem.sei?).length st os := by
  intro st
  induction st with
  | nil => intro a v h _ _ _ _; exact ⟨v, [], rfl, by rw [List.append_nil]; exact h, trivial⟩
  | cons x st ih =>
    intro a v h hord hsei hpre hafter
    have hassoc : a ++ x :: st = (a ++ [x]) ++ st := by simp
    cases x with
    | nalu d ts =>
      obtain ⟨v1, r, h1, h2, h3⟩ := at_nalu hΓ h (ts := ts) (hord d ts List.mem_cons_self)
      have e1 : (a ++ [StreamItem.nalu d ts]).filterMap StreamItem.sei? = a.filterMap StreamItem.sei? := by
        rw [List.filterMap_append]; simp [StreamItem.sei?]
      have e2 : (a ++ [StreamItem.nalu d ts]).filterMap (StreamItem.piece Γ.codec) =
          a.filterMap (StreamItem.piece Γ.codec) ++ ((StreamItem.nalu d ts).piece Γ.codec).toList := by
        rw [List.filterMap_append]
        congr 1
      rw [← e1, ← e2] at h2
      rw [hassoc] at hsei hpre hafter
      obtain ⟨v', os, g1, g0, g2⟩ := ih (a ++ [.nalu d ts]) v1 h2 (fun d ts hd => hord d ts (List.mem_cons_of_mem _ hd)) hsei hpre hafter
      refine ⟨v', _, authRun_ok h1 g1, by rw [hassoc]; exact g0, ?_⟩
      rw [e1, e2, List.length_append] at g2
      exact ⟨rfl, h3, g2⟩
    | sei b =>
      have hs : SeiOf Γ gs (a.filterMap StreamItem.sei?).length b := by
        refine hsei _ b ?_
        rw [List.filterMap_append, List.getElem?_append_right (Nat.le_refl _), Nat.sub_self]
        simp [StreamItem.sei?]
      have hn : a.filterMap (StreamItem.piece Γ.codec) <+: gs.flatten ++ cur := by
        rw [List.filterMap_append] at hpre
        exact (List.prefix_append _ _).trans hpre
      obtain ⟨v1, r, gop, h1, h2, h3, h4⟩ := at_sei hΓ h hs hgs hcur hn (hafter a b st rfl)
      have e1 : ((a ++ [StreamItem.sei b]).filterMap StreamItem.sei?).length = (a.filterMap StreamItem.sei?).length + 1 := by
        rw [List.filterMap_append, List.length_append]; rfl
      have e2 : (a ++ [StreamItem.sei b]).filterMap (StreamItem.piece Γ.codec) = a.filterMap (StreamItem.piece Γ.codec) := by
        rw [List.filterMap_append]; simp [StreamItem.piece]
      rw [← e1, ← e2] at h2
      rw [hassoc] at hsei hpre hafter
      obtain ⟨v', os, g1, g0, g2⟩ := ih (a ++ [.sei b]) v1 h2 (fun d ts hd => hord d ts (List.mem_cons_of_mem _ hd)) hsei hpre hafter
      refine ⟨v', _, authRun_ok h1 g1, by rw [hassoc]; exact g0, ?_⟩
      rw [e1, e2] at g2
      exact ⟨rfl, ⟨gop, r, h3, rfl, h4⟩, g2⟩

theorem At.of_early {v : Validator} (h : Early Γ [] v) (ok : Bool) (gs : List (List Piece)) : At Γ ok gs [] 0 v :=
  ⟨Nat.le_refl _, fun _ => h, fun h => absurd rfl h⟩

end Validator
end SV
