import Verif.Proofs.FlowGap
import Verif.Spec.Gap
/-! A stream in which SEIs are lost: the calls. -/
namespace SV
open Spec
namespace Validator

variable {Γ : Scene} {i : SeiInfo} {n m : Nalu} {p : Piece} {ps rest : List Piece} {cnt : UInt32} {link : Bytes} {k j : Nat} {b : Bool}

/-- What is reported with a SEI before which `j` SEIs, for `k` NAL units altogether, were lost. -/
structure GapReport (i : SeiInfo) (k j size rest : Nat) (r : Report) : Prop where
  key : r.latest.keyChanged = false
  pending : r.latest.pending = rest
  auth : r.latest.auth = if j = 0 then .ok else .notOk
  expected : r.latest.expected = if j = 0 then (i.num.toNat : Int) else -1
  received : r.latest.received = (size : Int) - j
  marks : ∃ s, r.latest.validationStr = some s ∧ (∀ ch ∈ s, ch ≠ 'M' ∧ ch ≠ 'E') ∧ (s.filter (· = 'N')).length = k ∧ (s.filter (· = 'P')).length = rest ∧
    size + 1 ≤ (s.filter (· = '.')).length

theorem gap_report (hΓ : Γ.Ok) (hn : IsSei Γ i n m) {s : Validator} (h : Closed Γ i p ps rest k j m s) :
    ∃ s4 s' r, s.copyLast = .ok s4 none ∧ s4.legacy = false ∧ s4.report = .ok s' (some r) ∧ InSync Γ false rest i.counter (Γ.H p.bytes) s' ∧ Tied s'.list ∧
      GapReport i k j (ps.length + 1) rest.length r := by
  obtain ⟨Q, T, z, hlist, hQ, hzn, hzs, ⟨r0, hrows, href⟩, hN, hok, hholes, hgood, hseen, htied⟩ := h.list
  obtain ⟨c, hc⟩ := copyNalu_sei hn
  have hfr : ∀ y ∈ Q ++ T, y.1 ≠ z.1 := by
    intro y hy e
    have := h.wf.nodup
    rw [hlist, ← List.append_assoc, List.map_append, List.nodup_append] at this
    exact this.2.2 _ (List.mem_map_of_mem hy) _ (List.mem_map_of_mem (f := Prod.fst) (List.mem_singleton_self _)) e
  have hcopy := copyLast_last (s := s) (c := c) (l := Q ++ T) (a := z.1) (i := z.2) (by rw [List.append_assoc]; exact hlist) hfr hzn (by
    rw [h.knows.known]; exact hc)
  obtain ⟨zz, hzz⟩ : ∃ zz : Nat × Item, zz = (z.1, { z.2 with nalu := some c, taken := true }) := ⟨_, rfl⟩
  obtain ⟨L, hL⟩ : ∃ L, L = (Q ++ T) ++ [zz] := ⟨_, rfl⟩
  obtain ⟨s4, hs4⟩ : ∃ s4, s4 = { s with list := L } := ⟨_, rfl⟩
  have hcopy' : s.copyLast = .ok s4 none := by rw [hs4, hL, hzz]; exact hcopy
  have hzzs : zz.2.status = .ok := by rw [hzz]; exact hzs
  have hrl : s4.rep = s.rep := by rw [hs4]
  have h4l : s4.list = L := by rw [hs4]
  obtain ⟨r', hu1, -, hu3, hu4⟩ := updateReport_ok (r := s4.rep) s4.list (by rw [hrl, h.version])
  have hrep : s4.report = .ok { s4 with rep := { (getReport r' (cleanUp L).length).1 with latest := { (getReport r' (cleanUp L).length).1.latest with hasTs := false } }, list := cleanUp L }
      (some (getReport r' (cleanUp L).length).2) := by
    unfold report
    rw [if_pos (by rw [hs4]; exact h.hasAuth), hu1, h4l]
  have hLp : SV.pending L = SV.pending T := by
    rw [hL, pending_append, pending_append, hQ, pending_cons, if_neg (by rw [hzzs]; decide), List.nil_append]
    show SV.pending T ++ [] = _
    rw [List.append_nil]
  have hyl : (SV.pending T).length = rest.length := Rows.length hrows
  have hCL : cleanUp L = cleanUp (T ++ [zz]) := by rw [hL, List.append_assoc, cleanUp_done hQ]
  have hsub := cleanUp_sublist (T ++ [zz])
  have hzu : zz.2.used = false := by
    rw [hzz]; exact h.unused z (by rw [hlist]; simp)
  have hLgood : ∀ y ∈ cleanUp L, y.2.status ≠ .N ∧ y.2.status ≠ .M ∧ y.2.status ≠ .E := by
    intro y hy
    rw [hCL] at hy
    rcases List.mem_append.1 (hsub.subset hy) with hy | hy
    · exact hgood y hy
    · rw [List.mem_singleton.1 hy, hzzs]; decide
  have hLwf : WF L s.brk := by
    refine WF.of_addr h.wf ?_
    rw [hL, hlist, hzz, ← List.append_assoc, List.map_append, List.map_append (l₁ := Q ++ T)]
    rfl
  refine ⟨s4, _, _, hcopy', by rw [hs4]; exact h.legacy, hrep, ?_, ?_, ?_⟩
  · subst hs4
    refine ⟨h.codec, h.legacy, h.signing, h.afterNext, ?_, ?_, ⟨r0, ?_, href⟩, ?_, hLgood, h.budLen, h.count, h.linkLen, h.link, h.primary, hu3, (fun hb => by cases hb), h.notFirst, h.synced, ?_⟩
    · refine h.knows.same_of rfl rfl rfl ?_
      show r'.latest.keyChanged = false
      rw [hu4]; exact h.knows.same
    · show WF (cleanUp L) s.brk
      exact WF.sublist hLwf (cleanUp_sublist L)
    · show Rows Γ _ rest (SV.pending (cleanUp L))
      rw [pending_cleanUp, hLp]; exact hrows
    · intro y hy
      have hy : y ∈ cleanUp L := hy
      rw [hCL] at hy
      rcases List.mem_append.1 (hsub.subset hy) with hy | hy
      · exact h.unused y (by rw [hlist]; simp [hy])
      · rw [List.mem_singleton.1 hy]; exact hzu
    · intro y hy
      have hy : y ∈ cleanUp L := hy
      rw [hCL] at hy
      rcases List.mem_append.1 (hsub.subset hy) with hy | hy
      · exact hseen y hy
      · rw [List.mem_singleton.1 hy, hzz]
        exact ⟨c, rfl, fun _ hf => absurd hf (by rw [(copyNalu_first hc), hn.same, hn.first]; decide)⟩
  · show Tied (cleanUp L)
    rw [hCL]
    have h1 : Tied (T ++ [zz]) := htied.snoc (fun e => by rw [hzzs] at e; cases e)
    unfold cleanUp
    obtain ⟨P, hP⟩ := List.dropWhile_suffix (l := T ++ [zz]) (fun x => decide (x.2.status ≠ .P))
    exact Tied.suffix (P := P) (hP.symm ▸ h1)
  · have hc4 : ∀ st, L.countP (hasStatus st) = Q.countP (hasStatus st) + (T.countP (hasStatus st) + [zz].countP (hasStatus st)) := by
      intro st
      rw [hL, List.countP_append, List.countP_append, Nat.add_assoc]
    have hT0 : ∀ st, st = .N → T.countP (hasStatus st) = 0 := by
      rintro _ rfl
      rw [List.countP_eq_zero]
      intro y hy
      simp only [hasStatus, decide_eq_true_eq]
      exact (hgood y hy).1
    refine ⟨?_, ?_, ?_, ?_, ?_, validationStr L, ?_, ?_, ?_, ?_, ?_⟩
    · show r'.latest.keyChanged = false
      rw [hu4, hrl]; exact h.knows.same
    · show r'.latest.pending = _
      rw [hu4, hrl]; exact h.pending
    · show r'.latest.auth = _
      rw [hu4, hrl]; exact h.auth
    · show r'.latest.expected = _
      rw [hu4, hrl]; exact h.expected
    · show r'.latest.received = _
      rw [hu4, hrl, h.received]; push_cast; rfl
    · show some (r'.latest.validationStr.getD []) = _
      rw [hu4, h4l]; rfl
    · intro ch hch
      unfold validationStr at hch
      obtain ⟨y, hy, rfl⟩ := List.mem_map.1 hch
      have : y.2.status ≠ .M ∧ y.2.status ≠ .E := by
        rw [hL] at hy
        rcases List.mem_append.1 hy with hy | hy
        · rcases List.mem_append.1 hy with hy | hy
          · exact hholes y hy
          · exact (hgood y hy).2
        · rw [List.mem_singleton.1 hy, hzzs]; decide
      obtain ⟨h5, h6⟩ := this
      generalize y.2.status = st at h5 h6
      cases st <;> simp_all [Status.char]
    · rw [validationStr_count .N 'N' rfl (by intro t; cases t <;> simp [Status.char])]
      show (L.filter (hasStatus .N)).length = _
      rw [← List.countP_eq_length_filter, hc4, hN, hT0 _ rfl]
      have : [zz].countP (hasStatus .N) = 0 := by simp [hasStatus, hzzs]
      omega
    · rw [validationStr_count .P 'P' rfl (by intro t; cases t <;> simp [Status.char])]
      show (SV.pending L).length = _
      rw [hLp, hyl]
    · rw [validationStr_count .ok '.' rfl (by intro t; cases t <;> simp [Status.char])]
      show _ ≤ (L.filter (hasStatus .ok)).length
      rw [← List.countP_eq_length_filter, hc4]
      have : [zz].countP (hasStatus .ok) = 1 := by simp [hasStatus, hzzs]
      omega

/-- A SEI; the GOPs `ds` have none. -/
theorem sync_gap (hΓ : Γ.Ok) (ho : Γ.env.ov = .exact) {s : Validator} {ds : List (List Piece)} (h0 : InSync Γ b (ds.flatten ++ (p :: ps ++ rest)) cnt link s) (ht : Tied s.list)
    (hds : ∀ g ∈ ds, Started g) {d : Bytes} (hd : d ≠ []) (hp : parseNalu d Γ.codec true true = .ok n) (hn : IsSei Γ i n m) (first : p.first = true)
    (others : ∀ q ∈ ps, q.first = false) (next : ∀ q t, rest = q :: t → q.first = true) (counter : i.counter.toNat = cnt.toNat + ds.length + 1)
    (linked : i.linked = linkAfter Γ link ds) (gopHash : ∃ r0, i.gopHash = Γ.H (pieceHashes Γ.H r0 (p :: ps)).flatten) (num : i.num.toNat ≤ ps.length + 1)
    (rounds : ds.length + 2 ≤ Γ.env.rounds) :
    ∃ s' r, s.add Γ.env d = .ok s' (some r) ∧ InSync Γ false rest i.counter (Γ.H p.bytes) s' ∧ Tied s'.list ∧
      GapReport i ds.flatten.length ds.length (ps.length + 1) rest.length r := by
  have h := h0.opened
  have hfr := fresh_last h.wf
  have e1 := register_sei hΓ hn (u := s.opened.entered n) (l := s.opened.list) (a := s.opened.brk) rfl hfr ⟨h.knows.known, h.knows.size, h.knows.typ⟩
  obtain ⟨z, hz⟩ : ∃ z : Nat × Item, z = (s.opened.brk, { newItem (some n) with nalu := some m, hash := ovl (Γ.H i.doc) [] }) := ⟨_, rfl⟩
  rw [← hz] at e1
  obtain ⟨u, hu⟩ : ∃ u, u = { s.opened.entered n with list := s.opened.list ++ [z] } := ⟨_, rfl⟩
  rw [← hu] at e1
  have hgap : Gap Γ i (ds.flatten ++ (p :: ps ++ rest)) cnt link 0 [] s.opened.list z m u := by
    subst hu
    refine ⟨h.codec, h.legacy, ?_, h.notFirst, h.synced, h.knows.same_of rfl rfl rfl h.knows.same, ?_, rfl, rfl, h.rows, ?_, rfl, ?_, h.good, h.budLen, h.count, h.linkLen, h.link,
      h.primary, h.version, ?_, by rw [hz], ?_, h.seen, ht⟩
    · show (s.flags.signing || n.gopSei) = true
      rw [h0.signing]; rfl
    · rw [hz]; exact WF.append h.wf _
    · intro x hx
      rcases List.mem_append.1 hx with hx | hx
      · exact h.unused x hx
      · rw [List.mem_singleton.1 hx, hz]; rfl
    · intro x hx; cases hx
    · rw [hz]; exact sei_status hn
    · rw [hz]; exact buf_ovl (hΓ.len _)
  obtain ⟨f, hf⟩ : ∃ f, Γ.env.rounds = ds.length + (f + 2) := ⟨Γ.env.rounds - ds.length - 2, by omega⟩
  obtain ⟨s3, q1, q2⟩ := gap_rounds hΓ ho hn first others next gopHash num f ds (j := 0) hds hgap (.inl ⟨⟨by rw [hz]; rfl, by rw [hu]; rfl⟩, rfl⟩) counter linked
  rw [Nat.zero_add, Nat.zero_add] at q2
  obtain ⟨s4, s', r, q3, q4, q5, q6, q7, q8⟩ := gap_report hΓ hn q2
  have hv := hn.valid
  have hfe : feasible z.2 = true := by
    unfold Validator.feasible
    rw [hgap.nalu, hgap.status, hn.same]
    dsimp only
    rw [hn.golden, hn.hashable, hn.sei]
    rfl
  have hbody : s.opened.addBody Γ.env n = .ok s3 () := by
    rw [addBody_entered (by omega), e1, Res.andThen_ok, hashAlgoBlock_known (u := u) (by rw [hu]; exact h.knows.known), Res.andThen_ok,
      maybeValidate_rounds (l := s.opened.list) (x := z) (by rw [hu]; exact h.legacy) (by rw [hu]) (by rw [hu]; exact h.knows.has) hfe, hf, q1]
  exact ⟨s', r, (add_ok hd h0.legacy (by rw [h0.codec]; exact hp) hbody q3 q4).trans q5, q6, q7, q8⟩

/-! ### The whole stream -/

/-- If the only first NAL unit among those that are pending comes before the others. -/
theorem tied_of_rows {r : Bytes} {q : List Piece} {l : NList} (h : Rows Γ r q (pending l)) (hq : ∀ p t, q = p :: t → ∀ x ∈ t, x.first = false) : Tied l := by
  intro A a y B e h1 h2
  have hp : pending l = pending (A ++ [a]) ++ y :: pending B := by
    rw [e, show A ++ a :: y :: B = (A ++ [a]) ++ y :: B by simp, pending_append, pending_cons, if_pos h1]
  cases hA : pending (A ++ [a]) with
  | nil => exact .inr rfl
  | cons x xs =>
    rw [hp, hA] at h
    cases q with
    | nil => exact h.elim
    | cons p t =>
      have := Rows.firsts h.2 (hq p t rfl) y (by simp)
      rw [this] at h2; cases h2

theorem linkAfter_last (lnk : Bytes) : ∀ (ds : List (List Piece)) {g : List Piece} {p : Piece} {t : List Piece}, g = p :: t → linkAfter Γ lnk (ds ++ [g]) = Γ.H p.bytes := by
  rintro ds _ p t rfl
  unfold linkAfter
  rw [List.foldl_append]; rfl

/-- The last item is pending if the last NAL unit is protected. -/
def Ends (codec : Codec) (a : List StreamItem) (v : Validator) : Prop :=
  ∀ x, a.getLast? = some x → (x.piece codec).isSome = true → ∃ y, v.list.getLast? = some y ∧ y.2.status = .P

/-- A NAL unit that is not a SEI, and what it does to the list. -/
theorem at_nalu_tied (hΓ : Γ.Ok) {ok : Bool} {gs : List (List Piece)} {q : List Piece} {v : Validator} (h : At Γ ok gs q k v) (hk : k ≠ 0) {d : Bytes} {ts : Option Int64}
    (ho : Ordinary Γ.codec d) (ht : Tied v.list) {a : List StreamItem} (he : Ends Γ.codec a v)
    (hclose : ∀ p, (StreamItem.nalu d ts).piece Γ.codec = some p → p.first = true → ∃ x, a.getLast? = some x ∧ (x.piece Γ.codec).isSome = true) :
    ∃ v', v.add Γ.env d = .ok v' none ∧ At Γ ok gs (q ++ ((StreamItem.nalu d ts).piece Γ.codec).toList) k v' ∧ Tied v'.list ∧ Ends Γ.codec (a ++ [.nalu d ts]) v' := by
  have hd := ho.some
  obtain ⟨m, hp, hs⟩ := ho.reads
  obtain ⟨hg, -⟩ := parseNalu_unsigned hd hp
  obtain ⟨htl, hgo⟩ := hg hs
  have hpc := parse_piece d Γ.codec true m hd hp
  by_cases hP : Protected Γ.codec ((body d).getD 0 0) ((body d).getD 1 0)
  · obtain ⟨h1, h2, h3, h4, h5⟩ := hpc.1 hP
    have hv : m.valid = 1 := by
      rcases h5 with h5 | h5
      · exact h5.1
      · exact absurd (ho.legal hP) h5.2
    have e : (StreamItem.nalu d ts).piece Γ.codec =
        some ⟨decide (IntraType Γ.codec ((body d).getD 0 0) ((body d).getD 1 0) ∧ 128 ≤ (sliceByte Γ.codec d).toNat), trimZeros (body d), ts⟩ := by
      simp only [StreamItem.piece, Spec.piece, if_pos hP]
    have hlast : (StreamItem.nalu d ts).piece Γ.codec ≠ none := by rw [e]; simp
    rw [e] at hclose
    rw [e]
    generalize hpe : (⟨decide (IntraType Γ.codec ((body d).getD 0 0) ((body d).getD 1 0) ∧ 128 ≤ (sliceByte Γ.codec d).toNat), trimZeros (body d), ts⟩ : Piece) = p at hclose ⊢
    have hb : m.hashable = p.bytes := by rw [h3, ← hpe]
    have hip : IsPiece p m := ⟨hv, h1, hs, hgo, by rw [h4, ← hpe], htl⟩
    have hne : p.bytes ≠ [] := by
      rw [← hpe]
      exact trimZeros_ne (protected_nonzero _ _ hP)
    obtain ⟨v', a1, a2, y, a3, a4⟩ := sync_piece_list hΓ (h.sync hk) hd hp hip hb hne
    refine ⟨v', a1, ⟨?_, fun hc => absurd hc hk, fun _ => ?_⟩, ?_, ?_⟩
    · have := h.le
      rw [List.length_append]; omega
    · rw [Option.toList_some, List.drop_append_of_le_length h.le]; exact a2
    · rw [a3]
      refine ht.snoc fun _ hyf => ?_
      obtain ⟨r, hr, -⟩ := a2.rows
      obtain ⟨xs, ys, e1, -, e3⟩ := Rows.split hr
      rw [a3, pending_append, pending_cons, if_pos a4] at e1
      have hpf : p.first = true := by
        cases ys with
        | nil => exact e3.elim
        | cons y' ys =>
          cases ys with
          | cons _ _ => exact e3.2.elim
          | nil =>
            have : y = y' := by
              have := congrArg List.getLast? e1
              simpa [SV.pending] using this
            rw [← e3.1.isFirst, ← this]; exact hyf
      obtain ⟨x, hx1, hx2⟩ := hclose p rfl hpf
      exact .inl (he x hx1 hx2)
    · intro x hx _
      exact ⟨y, by rw [a3]; simp, a4⟩
  · have e : (StreamItem.nalu d ts).piece Γ.codec = none := by
      simp only [StreamItem.piece, Spec.piece, if_neg hP]
    rw [e]
    simp only [Option.toList_none, List.append_nil]
    have hsk : Skips m := by
      refine ⟨?_, .inr ?_, hs, htl, (hpc.2 hP).2⟩
      · rcases parseNalu_valid hd hp with e | e <;> rw [e] <;> decide
      · cases hh : m.isHashable with
        | false => rfl
        | true =>
          have := ((hpc.2 hP).1 hh).2
          rw [hs] at this; cases this
    obtain ⟨v', a1, a2, y, a3, a4⟩ := sync_skip_list (h.sync hk) hd hp hsk
    refine ⟨v', a1, ⟨h.le, fun hc => absurd hc hk, fun _ => a2⟩, ?_, ?_⟩
    · rw [a3]
      exact ht.snoc fun hy => absurd hy a4
    · intro x hx hs
      rw [List.getLast?_append] at hx
      simp only [List.getLast?_singleton, Option.some_or, Option.some.injEq] at hx
      rw [← hx, e] at hs; cases hs

/-- SEI number `j` after SEIs number `k` to `j - 1` have been lost. -/
theorem at_gap (hΓ : Γ.Ok) (ho : Γ.env.ov = .exact) {gs : List (List Piece)} {cur q : List Piece} {v : Validator} (h : At Γ false gs q k v) (hk : k ≠ 0) (hkj : k ≤ j) {d : Bytes}
    (hs : SeiOf Γ gs j d) (ht : Tied v.list) (hgs : ∀ g ∈ gs, Started g) (hcur : cur = [] ∨ Started cur) (hn : q <+: gs.flatten ++ cur)
    (hle : (gs.take (j + 1)).flatten.length ≤ q.length) (hbig : Γ.base + j + 1 < 2 ^ 32) (hr : j - k + 2 ≤ Γ.env.rounds) :
    ∃ v' r gop i, v.add Γ.env d = .ok v' (some r) ∧ At Γ false gs q (j + 1) v' ∧ Tied v'.list ∧ gs[j]? = some gop ∧ i.num.toNat = gop.length % 65536 ∧
      GapReport i ((gs.take j).drop k).flatten.length (j - k) gop.length (q.length - (gs.take (j + 1)).flatten.length) r := by
  obtain ⟨hb, i, m, m', gop, hp, hsei, hgop, hcnt, hlink, hlists, hnum, hfirst⟩ := hs.sound
  have hhash : ∃ r0, i.gopHash = Γ.H (pieceHashes Γ.H r0 gop).flatten := by
    obtain ⟨r0, h, -⟩ := hlists
    exact ⟨r0, h⟩
  have hjlt := (List.getElem?_eq_some_iff.1 hgop).1
  have htake : gs.take (j + 1) = gs.take j ++ [gop] := by rw [List.take_add_one, hgop]; rfl
  have hflat : (gs.take (j + 1)).flatten = (gs.take j).flatten ++ gop := by rw [htake, List.flatten_append]; simp
  obtain ⟨p, t, rfl, hpf, hto⟩ := hgs gop (List.mem_of_getElem? hgop)
  have hall : gs.flatten = (gs.take (j + 1)).flatten ++ (gs.drop (j + 1)).flatten := by rw [← List.flatten_append, List.take_append_drop]
  have hpre : (gs.take (j + 1)).flatten <+: q := by
    refine List.prefix_of_prefix_length_le ?_ hn hle
    rw [hall, List.append_assoc]; exact List.prefix_append _ _
  obtain ⟨rest, hrest⟩ := hpre
  have hnext := rest_first hgs hcur hn hrest
  have hrd : q.drop (gs.take (j + 1)).flatten.length = rest := by rw [← hrest, List.drop_left]
  have hnr : q.length - (gs.take (j + 1)).flatten.length = rest.length := by rw [← hrest, List.length_append]; omega
  have hds : gs.take j = gs.take k ++ (gs.take j).drop k := by
    conv => lhs; rw [← List.take_append_drop k (gs.take j)]
    rw [List.take_take, Nat.min_eq_left hkj]
  obtain ⟨ds, hdse⟩ : ∃ ds, ds = (gs.take j).drop k := ⟨_, rfl⟩
  have hdl : ds.length = j - k := by rw [hdse, List.length_drop, List.length_take]; omega
  have hq : q.drop (gs.take k).flatten.length = ds.flatten ++ (p :: t ++ rest) := by
    rw [← hrest, hflat, hds, ← hdse, List.flatten_append, List.append_assoc, List.append_assoc, List.drop_left]
  have he := h.sync hk
  rw [hq] at he
  have hdst : ∀ g ∈ ds, Started g := fun g hg => hgs g (List.mem_of_mem_take (List.mem_of_mem_drop (hdse ▸ hg)))
  have hlk : i.linked = linkAfter Γ (firstHash Γ gs k) ds := by
    rw [hlink (by omega)]
    rcases List.eq_nil_or_concat ds with e | ⟨ds', g, e⟩
    · have : j = k := by rw [e, List.length_nil] at hdl; omega
      rw [e, this]; rfl
    · rw [List.concat_eq_append] at e
      obtain ⟨p', t', hg, -, -⟩ := hdst g (by rw [e]; simp)
      rw [e, linkAfter_last _ _ hg]
      have hgl : gs[j - 1]? = some g := by
        have h1 : ds[ds.length - 1]? = some g := by rw [e]; simp
        rw [hdse, List.getElem?_drop, List.getElem?_take_of_lt (by rw [← hdse, hdl]; rw [e, List.length_append] at hdl; simp at hdl; omega), ← hdse, hdl] at h1
        rw [← h1]
        congr 1
        rw [e, List.length_append] at hdl
        simp at hdl
        omega
      unfold firstHash
      rw [hgl, hg]; rfl
  have hc1 : i.counter.toNat = (UInt32.ofNat (Γ.base + k)).toNat + ds.length + 1 := by
    rw [hcnt, UInt32.toNat_ofNat', UInt32.toNat_ofNat', Nat.mod_eq_of_lt hbig, Nat.mod_eq_of_lt (by omega), hdl]
    omega
  have hnum' : i.num.toNat = (t.length + 1) % 65536 := by rw [hnum]; simp
  obtain ⟨v', r, a1, a2, a3, a4⟩ := sync_gap hΓ ho he ht hdst hb hp hsei hpf hto hnext hc1 hlk hhash (by rw [hnum']; exact Nat.mod_le _ _) (by omega)
  refine ⟨v', r, _, i, a1, ⟨hle, fun hc => absurd hc (Nat.succ_ne_zero j), fun _ => ?_⟩, a3, hgop, hnum', ?_⟩
  · have hfh : firstHash Γ gs (j + 1) = Γ.H p.bytes := by
      unfold firstHash
      rw [Nat.add_sub_cancel, hgop]; rfl
    rw [hrd, hfh, ← Nat.add_assoc, ← hcnt]; exact a2
  · rw [hnr, ← hdl]
    rw [hdse] at a4 ⊢
    exact a4

/-- The first SEI. -/
theorem at_first (hΓ : Γ.Ok) {gs : List (List Piece)} {cur q : List Piece} {v : Validator} (h : At Γ false gs q 0 v) {d : Bytes}
    (hs : SeiOf Γ gs 0 d) (hgs : ∀ g ∈ gs, Started g) (hcur : cur = [] ∨ Started cur) (hn : q <+: gs.flatten ++ cur)
    (hle : (gs.take 1).flatten.length ≤ q.length) (hprompt : (q.filter (·.first)).length ≤ 2) :
    ∃ v' r gop, v.add Γ.env d = .ok v' (some r) ∧ At Γ false gs q 1 v' ∧ Tied v'.list ∧ gs[0]? = some gop ∧ r.latest.keyChanged = false ∧
      r.latest.pending = (q.length - (gs.take 1).flatten.length : Nat) ∧ GoodNow gop.length (q.length - (gs.take 1).flatten.length) r := by
  obtain ⟨-, -, -, -, gop, -, -, hgop, -⟩ := hs.sound
  have hint : Intact gs gs 0 := ⟨⟨gop, gop, hgop, hgop, rfl⟩, fun _ => rfl⟩
  obtain ⟨v', r, gop', a1, a2, a3, a4, a5, a6, -⟩ := at_any hΓ (R := fun _ _ _ _ => True) ⟨fun _ _ => trivial, by intros; trivial⟩ h hs hgs hcur hn
    (List.getElem?_eq_some_iff.1 hgop).1 hle (fun _ => hint)
  refine ⟨v', r, gop', a1, a2, ?_, a3, a4, a5, a6 hint⟩
  obtain ⟨r0, hr0, -⟩ := (a2.sync (by decide)).rows
  refine tied_of_rows hr0 fun p t e x hx => ?_
  have htake : (gs.take 1).flatten = gop' := by
    rw [show (1 : Nat) = 0 + 1 from rfl, List.take_add_one, a3]; simp
  have hall : gs.flatten = (gs.take 1).flatten ++ (gs.drop 1).flatten := by rw [← List.flatten_append, List.take_append_drop]
  have hpre : (gs.take 1).flatten <+: q := by
    refine List.prefix_of_prefix_length_le ?_ hn hle
    rw [hall, List.append_assoc]; exact List.prefix_append _ _
  obtain ⟨rest, hrest⟩ := hpre
  have hnext := rest_first hgs hcur hn hrest
  have hrd : q.drop (gs.take 1).flatten.length = rest := by rw [← hrest, List.drop_left]
  rw [show 0 + 1 = 1 from rfl, hrd] at e
  obtain ⟨p0, t0, hg0, hf0, -⟩ := hgs gop' (List.mem_of_getElem? a3)
  rw [← hrest, htake, hg0, e, List.filter_append, List.filter_cons_of_pos hf0, List.filter_cons_of_pos (hnext p t e), List.length_append, List.length_cons, List.length_cons] at hprompt
  have h0 : (t.filter Piece.first).length = 0 := by omega
  have := List.filter_eq_nil_iff.1 (List.eq_nil_of_length_eq_zero h0) x hx
  simpa using this

theorem GapReport.good {i : SeiInfo} {size rest : Nat} {r : Report} (h : GapReport i 0 0 size rest r) (hi : i.num.toNat = size % 65536) : GoodNow size rest r := by
  obtain ⟨s, h1, h2, h3, h4, h5⟩ := h.marks
  refine ⟨h.auth, by rw [h.expected, if_pos rfl, hi], by rw [h.received]; simp, s, h1, fun c hc => ⟨?_, h2 c hc⟩, h4, h5⟩
  rintro rfl
  have := List.filter_eq_nil_iff.1 (List.eq_nil_of_length_eq_zero h3) 'N' hc
  simp at this

/-- The rest of a stream. -/
theorem gap_run (hΓ : Γ.Ok) (ho : Γ.env.ov = .exact) {gs : List (List Piece)} {cur : List Piece} (hgs : ∀ g ∈ gs, Started g) (hcur : cur = [] ∨ Started cur)
    (hbig : Γ.base + gs.length < 2 ^ 32) (hr : gs.length + 1 ≤ Γ.env.rounds) :
    ∀ (st a : List StreamItem) (nums : List Nat) (k : Nat) (v : Validator), At Γ false gs (a.filterMap (StreamItem.piece Γ.codec)) k v →
      (k ≠ 0 → Tied v.list ∧ Ends Γ.codec a v ∧ a.filterMap StreamItem.sei? ≠ []) → (k = 0 → a.filterMap StreamItem.sei? = [] ∧ ∀ j, nums.head? = some j → j = 0) →
      (∀ d ts, StreamItem.nalu d ts ∈ st → Ordinary Γ.codec d) → (st.filterMap StreamItem.sei?).length = nums.length →
      (∀ (x : Nat) b j, (st.filterMap StreamItem.sei?)[x]? = some b → nums[x]? = some j → SeiOf Γ gs j b) → nums.Pairwise (· < ·) → (∀ j ∈ nums, k ≤ j) →
      (a ++ st).filterMap (StreamItem.piece Γ.codec) <+: gs.flatten ++ cur →
      (∀ x b c j, st = x ++ .sei b :: c → nums[(x.filterMap StreamItem.sei?).length]? = some j →
        (gs.take (j + 1)).flatten.length ≤ ((a ++ x).filterMap (StreamItem.piece Γ.codec)).length) →
      (∀ x b c, a ++ st = x ++ .sei b :: c → x.filterMap StreamItem.sei? = [] → ((x.filterMap (StreamItem.piece Γ.codec)).filter (·.first)).length ≤ 2) →
      (∀ w x y c, a ++ st = w ++ x :: y :: c → (w ++ [x]).filterMap StreamItem.sei? ≠ [] → ∀ p, y.piece Γ.codec = some p → p.first = true → (x.piece Γ.codec).isSome = true) →
      ∃ v' os, authRun Γ.env v (st.map fun x => .nalu x.bytes) = .ok (v', os) ∧
        Skipping Γ.codec gs (a.filterMap (StreamItem.piece Γ.codec)).length k nums st os := by
  intro st
  induction st with
  | nil => intro a nums k v _ _ _ _ _ _ _ _ _ _ _ _; exact ⟨v, [], rfl, trivial⟩
  | cons x st ih =>
    intro a nums k v h hk1 hk0 hord hlen hsei hpw hmin hpre hafter hprompt hclose
    have hassoc : a ++ x :: st = (a ++ [x]) ++ st := by simp
    cases x with
    | nalu d ts =>
      have hstep : ∃ v1 r, v.add Γ.env d = .ok v1 r ∧ At Γ false gs (a.filterMap (StreamItem.piece Γ.codec) ++ ((StreamItem.nalu d ts).piece Γ.codec).toList) k v1 ∧
          (∀ p, r = some p → k = 0 ∧ p.latest.auth = .notSigned ∧ p.acc.auth = .notSigned) ∧ (k ≠ 0 → Tied v1.list ∧ Ends Γ.codec (a ++ [.nalu d ts]) v1) := by
        by_cases hk : k = 0
        · obtain ⟨v1, r, h1, h2, h3⟩ := at_nalu hΓ h (ts := ts) (hord d ts List.mem_cons_self)
          exact ⟨v1, r, h1, h2, h3, fun hc => absurd hk hc⟩
        · obtain ⟨q1, q2, q3⟩ := hk1 hk
          obtain ⟨v1, h1, h2, h3, h4⟩ := at_nalu_tied hΓ h hk (ts := ts) (hord d ts List.mem_cons_self) q1 q2 (by
            intro p hp hf
            rcases List.eq_nil_or_concat a with e | ⟨a', z, e⟩
            · rw [e] at q3; exact absurd rfl q3
            · rw [List.concat_eq_append] at e
              refine ⟨z, by rw [e]; simp, hclose a' z (.nalu d ts) st (by rw [e]; simp) (by rw [← e]; exact q3) p hp hf⟩)
          exact ⟨v1, none, h1, h2, (fun p hp => by cases hp), fun _ => ⟨h3, h4⟩⟩
      obtain ⟨v1, r, h1, h2, h3, h4⟩ := hstep
      have e1 : (a ++ [StreamItem.nalu d ts]).filterMap StreamItem.sei? = a.filterMap StreamItem.sei? := by
        rw [List.filterMap_append]; simp [StreamItem.sei?]
      have e2 : (a ++ [StreamItem.nalu d ts]).filterMap (StreamItem.piece Γ.codec) =
          a.filterMap (StreamItem.piece Γ.codec) ++ ((StreamItem.nalu d ts).piece Γ.codec).toList := by
        rw [List.filterMap_append]
        congr 1
      have e3 : (StreamItem.nalu d ts :: st).filterMap StreamItem.sei? = st.filterMap StreamItem.sei? := rfl
      rw [← e2] at h2
      rw [hassoc] at hpre hprompt hclose
      rw [e3] at hsei hlen
      obtain ⟨v', os, g1, g2⟩ := ih (a ++ [.nalu d ts]) nums k v1 h2 (fun hc => ⟨(h4 hc).1, (h4 hc).2, by rw [e1]; exact (hk1 hc).2.2⟩) (fun hc => by rw [e1]; exact hk0 hc)
        (fun d ts hd => hord d ts (List.mem_cons_of_mem _ hd)) hlen hsei hpw hmin hpre (by
          intro y b c j e hj
          have := hafter (.nalu d ts :: y) b c j (by rw [e]; rfl) hj
          rwa [show a ++ StreamItem.nalu d ts :: y = a ++ [StreamItem.nalu d ts] ++ y by simp] at this) hprompt hclose
      refine ⟨v', _, authRun_ok h1 g1, ?_⟩
      rw [e2, List.length_append] at g2
      exact ⟨rfl, h3, g2⟩
    | sei b =>
      have e3 : (StreamItem.sei b :: st).filterMap StreamItem.sei? = b :: st.filterMap StreamItem.sei? := by simp [StreamItem.sei?]
      rw [e3] at hlen hsei
      cases nums with
      | nil => simp at hlen
      | cons j nums =>
        have hs : SeiOf Γ gs j b := hsei 0 b j rfl rfl
        have hjlt : j < gs.length := by
          obtain ⟨-, -, -, -, gop, -, -, hgop, -⟩ := hs.sound
          exact (List.getElem?_eq_some_iff.1 hgop).1
        have hn : a.filterMap (StreamItem.piece Γ.codec) <+: gs.flatten ++ cur := by
          rw [List.filterMap_append] at hpre
          exact (List.prefix_append _ _).trans hpre
        have hle := hafter [] b st j rfl rfl
        rw [List.append_nil] at hle
        have hkj : k ≤ j := hmin j (by simp)
        have hstep : ∃ v1 r gop, v.add Γ.env b = .ok v1 (some r) ∧ At Γ false gs (a.filterMap (StreamItem.piece Γ.codec)) (j + 1) v1 ∧ Tied v1.list ∧ gs[j]? = some gop ∧
            r.latest.keyChanged = false ∧ r.latest.pending = ((a.filterMap (StreamItem.piece Γ.codec)).length - (gs.take (j + 1)).flatten.length : Nat) ∧
            (j = k → GoodNow gop.length ((a.filterMap (StreamItem.piece Γ.codec)).length - (gs.take (j + 1)).flatten.length) r) ∧
            (k < j → SkippedNow (j - k) ((gs.take j).drop k).flatten.length gop.length ((a.filterMap (StreamItem.piece Γ.codec)).length - (gs.take (j + 1)).flatten.length) r) := by
          by_cases hk : k = 0
          · obtain ⟨q1, q2⟩ := hk0 hk
            have hj : j = 0 := q2 j rfl
            subst hk hj
            obtain ⟨v1, r, gop, c1, c2, c3, c4, c5, c6, c7⟩ := at_first hΓ h hs hgs hcur hn hle (hprompt a b st rfl q1)
            exact ⟨v1, r, gop, c1, c2, c3, c4, c5, c6, fun _ => c7, fun hc => absurd hc (Nat.lt_irrefl _)⟩
          · obtain ⟨q1, q2, q3⟩ := hk1 hk
            obtain ⟨v1, r, gop, i, c1, c2, c3, c4, c5, c6⟩ := at_gap hΓ ho h hk hkj hs q1 hgs hcur hn hle (by omega) (by omega)
            refine ⟨v1, r, gop, c1, c2, c3, c4, c6.key, c6.pending, fun hc => ?_, fun hc => ?_⟩
            · subst hc
              rw [Nat.sub_self, show (gs.take j).drop j = [] by rw [List.drop_eq_nil_iff, List.length_take]; omega] at c6
              exact c6.good c5
            · have hne : j - k ≠ 0 := by omega
              refine ⟨by rw [c6.auth, if_neg hne], by rw [c6.expected, if_neg hne], c6.received, c6.marks⟩
        obtain ⟨v1, r, gop, h1, h2, h3, h4, h5, h6, h7, h8⟩ := hstep
        have e1 : (a ++ [StreamItem.sei b]).filterMap StreamItem.sei? ≠ [] := by
          rw [List.filterMap_append]; simp [StreamItem.sei?]
        have e2 : (a ++ [StreamItem.sei b]).filterMap (StreamItem.piece Γ.codec) = a.filterMap (StreamItem.piece Γ.codec) := by
          rw [List.filterMap_append]; simp [StreamItem.piece]
        rw [← e2] at h2
        rw [hassoc] at hpre hprompt hclose
        obtain ⟨p1, p2⟩ := List.pairwise_cons.1 hpw
        obtain ⟨v', os, g1, g2⟩ := ih (a ++ [.sei b]) nums (j + 1) v1 h2
          (fun _ => ⟨h3, (fun x hx hp => by
            rw [List.getLast?_append] at hx
            simp only [List.getLast?_singleton, Option.some_or, Option.some.injEq] at hx
            rw [← hx] at hp; cases hp), e1⟩) (fun hc => absurd hc (Nat.succ_ne_zero j))
          (fun d ts hd => hord d ts (List.mem_cons_of_mem _ hd)) (by simpa using hlen)
          (fun x b j hb hj => hsei (x + 1) b j (by simpa using hb) (by simpa using hj)) p2 (fun i hi => p1 i hi) hpre (by
            intro y b' c j' e hj
            have := hafter (.sei b :: y) b' c j' (by rw [e]; rfl) (by
              rw [List.filterMap_cons_some (by rfl), List.length_cons, List.getElem?_cons_succ]; exact hj)
            rwa [show a ++ StreamItem.sei b :: y = a ++ [StreamItem.sei b] ++ y by simp] at this) hprompt hclose
        refine ⟨v', _, authRun_ok h1 g1, ?_⟩
        rw [e2] at g2
        exact ⟨rfl, ⟨gop, r, h4, rfl, h5, h6, h7, h8⟩, g2⟩

end Validator
end SV
