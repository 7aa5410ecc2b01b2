import Verif.Proofs.FlowStream
/-! The stream in the order of the calls. -/
namespace SV
open Spec

theorem honest_prefix {hs : Hashing} (a b : List SCall) : ∀ (s : Signer) (n : Nat), Honest hs s n (a ++ b) → Honest hs s n a := by
  induction a with
  | nil => intro s n _; trivial
  | cons c a ih =>
    intro s n h
    obtain ⟨h1, h2, h3⟩ := h
    exact ⟨h1, h2, fun s' o hr => ih _ _ (h3 s' o hr)⟩

/-- The session up to a call. -/
theorem _root_.SV.Spec.Undisturbed.upTo {hs : Hashing} {codec : Codec} {oid : Bytes} {v : UInt8 × UInt8 × UInt8} {setup : List Setting}
    {c1 c2 : List SCall} {s : Signer} {os : List Obs} (h : Undisturbed hs codec oid v setup (c1 ++ c2) s os) :
    ∃ s' x y, os = x ++ y ∧ x.length = setup.length + c1.length ∧ Undisturbed hs codec oid v setup c1 s' x := by
  have hr := h.run
  have hh := h.honest
  have ha := h.accepted
  rw [← List.append_assoc] at hr hh ha
  obtain ⟨t, x, y, r1, r2, rfl, r4⟩ := signRun_append _ _ hr
  refine ⟨t, x, y, rfl, by simpa using r4, h.oidLen, h.hashLen, h.setupOk, fun c hc => h.regular c (by simp [hc]), fun c hc => h.notPrepend c (by simp [hc]),
    honest_prefix _ _ _ _ hh, r1, (accepted_append _ _ _ _ r4 ha).1⟩

theorem gops_prefix (a : List Piece) : ∀ b : List Piece, (gops a).1 <+: (gops (a ++ b)).1 := by
  intro b
  rw [← List.reverse_reverse b]
  induction b.reverse with
  | nil => simp
  | cons p b ih =>
    rw [List.reverse_cons, ← List.append_assoc, gops_snoc]
    refine ih.trans ?_
    unfold addPiece
    split
    · exact List.prefix_append _ _
    · exact List.prefix_refl _

theorem inOrder_given : ∀ (cs : List SCall) (os : List Obs), os.length = cs.length → (inOrder cs os).filterMap StreamItem.given = cs.filterMap givenNalu := by
  intro cs
  induction cs with
  | nil => intro os _; cases os <;> rfl
  | cons c cs ih =>
    intro os hl
    cases os with
    | nil => cases hl
    | cons o os =>
      simp only [inOrder, List.filterMap_append]
      rw [ih os (by simpa using hl), List.filterMap_cons]
      have e2 : (o.sei.map StreamItem.sei).toList.filterMap StreamItem.given = [] := by cases o.sei <;> simp [StreamItem.given]
      rw [e2, List.append_nil]
      cases givenNalu c <;> simp [StreamItem.given]

theorem inOrder_sei : ∀ (cs : List SCall) (os : List Obs), os.length = cs.length → (inOrder cs os).filterMap StreamItem.sei? = delivered os := by
  intro cs
  induction cs with
  | nil => intro os hl; rw [List.eq_nil_of_length_eq_zero hl]; rfl
  | cons c cs ih =>
    intro os hl
    cases os with
    | nil => cases hl
    | cons o os =>
      simp only [inOrder, List.filterMap_append]
      rw [ih os (by simpa using hl)]
      unfold delivered
      rw [List.filterMap_cons]
      have e2 : ((givenNalu c).map fun x => StreamItem.nalu x.1 x.2).toList.filterMap StreamItem.sei? = [] := by cases givenNalu c <;> simp [StreamItem.sei?]
      rw [e2, List.nil_append]
      cases o.sei <;> simp [StreamItem.sei?]

/-- The NAL unit of a call in the stream. -/
def ownItem (c : SCall) : List StreamItem := ((givenNalu c).map fun x => StreamItem.nalu x.1 x.2).toList

/-- The SEI `b` was handed out by a call, and `a` is what is in the stream before it. -/
def FromCall (cs : List SCall) (os : List Obs) (a : List StreamItem) (b : Bytes) : Prop :=
  ∃ c1 call c2 o1 o o2, cs = c1 ++ call :: c2 ∧ os = o1 ++ o :: o2 ∧ o1.length = c1.length ∧ o.sei = some b ∧ a = inOrder c1 o1 ++ ownItem call

theorem inOrder_split : ∀ (cs : List SCall) (os : List Obs) (a : List StreamItem) (b : Bytes) (c : List StreamItem), os.length = cs.length →
    inOrder cs os = a ++ .sei b :: c → FromCall cs os a b := by
  intro cs
  induction cs with
  | nil => intro os a b c _ h; cases os <;> (unfold inOrder at h; exact absurd h (by simp))
  | cons x cs ih =>
    intro os a b c hl h
    cases os with
    | nil => cases hl
    | cons o os =>
      have hl' : os.length = cs.length := by simpa using hl
      have later : ∀ w, inOrder cs os = w ++ .sei b :: c → a = ownItem x ++ (o.sei.map StreamItem.sei).toList ++ w → FromCall (x :: cs) (o :: os) a b := by
        intro w hw ha
        obtain ⟨c1, call, c2, o1, o', o2, rfl, rfl, h3, h4, h5⟩ := ih os w b c hl' hw
        refine ⟨x :: c1, call, c2, o :: o1, o', o2, rfl, rfl, by simp [h3], h4, ?_⟩
        rw [ha, h5]; simp [inOrder, ownItem]
      have here : a = ownItem x → o.sei = some b → FromCall (x :: cs) (o :: os) a b := by
        intro ha ho
        exact ⟨[], x, cs, [], o, os, rfl, rfl, rfl, ho, by rw [ha]; rfl⟩
      unfold inOrder at h
      have e : ((givenNalu x).map fun x => StreamItem.nalu x.1 x.2).toList = ownItem x := rfl
      rw [e] at h
      cases hg : givenNalu x with
      | none =>
        have e : ownItem x = [] := by unfold ownItem; rw [hg]; rfl
        rw [e] at h here later
        cases hs : o.sei with
        | none =>
          rw [hs] at h later
          exact later a (by simpa using h) (by simp)
        | some b' =>
          rw [hs] at h later
          cases a with
          | nil =>
            simp at h
            exact here rfl (by rw [hs, h.1])
          | cons y w =>
            simp at h
            exact later w h.2 (by simp [h.1])
      | some z =>
        have e : ownItem x = [.nalu z.1 z.2] := by unfold ownItem; rw [hg]; rfl
        rw [e] at h here later
        cases a with
        | nil => simp at h
        | cons y w =>
          simp at h
          obtain ⟨rfl, h⟩ := h
          cases hs : o.sei with
          | none =>
            rw [hs] at h later
            exact later w (by simpa using h) (by simp)
          | some b' =>
            rw [hs] at h later
            cases w with
            | nil =>
              simp at h
              exact here rfl (by rw [hs, h.1])
            | cons y' w =>
              simp at h
              exact later w h.2 (by simp [h.1])

theorem inOrder_pieces (codec : Codec) (cs : List SCall) (os : List Obs) (h : os.length = cs.length) :
    (inOrder cs os).filterMap (StreamItem.piece codec) = pieces codec cs := by
  have e1 : ∀ st : List StreamItem, st.filterMap (StreamItem.piece codec) = (st.filterMap StreamItem.given).filterMap fun x => piece codec (.nalu x.1 x.2 true none) := by
    intro st
    rw [List.filterMap_filterMap]
    congr 1
    funext x
    cases x <;> simp [StreamItem.piece, StreamItem.given]
  rw [e1, inOrder_given cs os h]
  unfold pieces
  rw [List.filterMap_filterMap]
  congr 1
  funext x
  cases x <;> simp [piece, givenNalu]

/-- Observations during the setup and after it. -/
theorem _root_.SV.Spec.Undisturbed.observed {hs : Hashing} {codec : Codec} {oid : Bytes} {v : UInt8 × UInt8 × UInt8} {setup : List Setting}
    {cs : List SCall} {s : Signer} {os : List Obs} (h : Undisturbed hs codec oid v setup cs s os) :
    ∃ x y, os = x ++ y ∧ x.length = setup.length ∧ y.length = cs.length ∧ delivered os = delivered y := by
  obtain ⟨s0, x, y, r1, r2, rfl, r4⟩ := signRun_append _ _ h.run
  obtain ⟨_, q2⟩ := setup_ready setup (newSigner_ready codec oid v h.oidLen h.hashLen) h.setupOk r1
  obtain ⟨_, _, y', _, e0, e, l⟩ := signRun_append cs [] (by rw [List.append_nil]; exact r2)
  refine ⟨x, y, rfl, by simpa using r4, ?_, ?_⟩
  · unfold signRun at e0
    cases e0
    rw [e, List.append_nil]; exact l
  · unfold delivered
    rw [List.filterMap_append, List.filterMap_eq_nil_iff.2 (fun o ho => (q2 o ho).2.2), List.nil_append]

theorem stream_pieces (codec : Codec) {cs : List SCall} {st : List StreamItem} (h : st.filterMap StreamItem.given <+: cs.filterMap givenNalu) :
    st.filterMap (StreamItem.piece codec) <+: pieces codec cs := by
  have e1 : st.filterMap (StreamItem.piece codec) = (st.filterMap StreamItem.given).filterMap fun x => piece codec (.nalu x.1 x.2 true none) := by
    rw [List.filterMap_filterMap]
    congr 1
    funext x
    cases x <;> simp [StreamItem.piece, StreamItem.given]
  have e2 : pieces codec cs = (cs.filterMap givenNalu).filterMap fun x => piece codec (.nalu x.1 x.2 true none) := by
    unfold pieces
    rw [List.filterMap_filterMap]
    congr 1
    funext x
    cases x <;> simp [piece, givenNalu]
  rw [e1, e2]
  exact h.filterMap _

theorem given_of {cs : List SCall} {st : List StreamItem} (ht : st.filterMap StreamItem.given <+: cs.filterMap givenNalu) {d : Bytes} {ts : Option Int64}
    (hd : StreamItem.nalu d ts ∈ st) : ∃ l rc, SCall.nalu d ts l rc ∈ cs := by
  have h1 : (d, ts) ∈ st.filterMap StreamItem.given := List.mem_filterMap.2 ⟨_, hd, rfl⟩
  obtain ⟨c, hc, he⟩ := List.mem_filterMap.1 (ht.subset h1)
  cases c with
  | nalu d' ts' l rc =>
    cases he
    exact ⟨l, rc, hc⟩
  | _ => cases he

/-- What is written in the order of the calls is a stream in order. -/
theorem transmits_inOrder {hs : Hashing} {codec : Codec} {oid : Bytes} {v : UInt8 × UInt8 × UInt8} {setup : List Setting}
    {cs : List SCall} {s : Signer} {os : List Obs} (h : Undisturbed hs codec oid v setup cs s os) :
    Transmits codec cs os (inOrder cs (os.drop setup.length)) ∧ (inOrder cs (os.drop setup.length)).filterMap StreamItem.sei? = delivered os := by
  obtain ⟨x, y, rfl, hx, hy, hd⟩ := h.observed
  have hdrop : (x ++ y).drop setup.length = y := by rw [← hx, List.drop_left]
  rw [hdrop]
  refine ⟨⟨?_, ?_, ?_⟩, by rw [inOrder_sei cs y hy, hd]⟩
  · exact stream_pieces codec (by rw [inOrder_given cs y hy]; exact List.prefix_refl _)
  · rw [inOrder_sei cs y hy, hd]; exact List.prefix_refl _
  · intro a b c hab
    obtain ⟨c1, call, c2, o1, o, o2, rfl, rfl, hl, ho, rfl⟩ := inOrder_split cs y a b c hy hab
    have hc : c1 ++ call :: c2 = (c1 ++ [call]) ++ c2 := by simp
    rw [hc] at h
    obtain ⟨s', x', y', e1, l1, h'⟩ := h.upTo
    obtain ⟨x2, y2, rfl, hx2, hy2, hd2⟩ := h'.observed
    have hxx : x2 = x ∧ y2 = o1 ++ [o] := by
      have e2 : x ++ (o1 ++ o :: o2) = x2 ++ (y2 ++ y') := by rw [e1]; simp
      obtain ⟨e3, e4⟩ := List.append_inj e2 (by rw [hx, hx2])
      refine ⟨e3.symm, ?_⟩
      have e5 : (o1 ++ [o]) ++ o2 = y2 ++ y' := by rw [← e4]; simp
      exact (List.append_inj e5 (by rw [hy2]; simp [hl])).1.symm
    obtain ⟨rfl, rfl⟩ := hxx
    obtain ⟨s0, -, -, k3, k4⟩ := h'.told (L := False) (fun hx => hx.elim)
    have hdl : (delivered (x2 ++ (o1 ++ [o])))[(delivered o1).length]? = some b := by
      rw [hd2]
      unfold delivered
      rw [List.filterMap_append, List.getElem?_append_right (Nat.le_refl _), Nat.sub_self]
      simp [ho]
    obtain ⟨g, d, g1, -⟩ := k4 _ _ hdl
    obtain ⟨gop, nxt, a1, -⟩ := k3.gens _ g g1
    have hlt := (List.getElem?_eq_some_iff.1 a1).1
    obtain ⟨hpart, -⟩ := gops_partition (pieces codec (c1 ++ [call]))
    have hpl := congrArg List.length hpart
    rw [List.length_append] at hpl
    obtain ⟨more, hm⟩ := gops_prefix (pieces codec (c1 ++ [call])) (pieces codec c2)
    have e6 : pieces codec (c1 ++ call :: c2) = pieces codec (c1 ++ [call]) ++ pieces codec c2 := by rw [hc]; unfold pieces; rw [List.filterMap_append]
    have e7 : (inOrder c1 o1 ++ ownItem call).filterMap StreamItem.sei? = delivered o1 := by
      rw [List.filterMap_append, inOrder_sei c1 o1 hl]
      unfold ownItem
      cases givenNalu call <;> simp [StreamItem.sei?]
    have e8 : (inOrder c1 o1 ++ ownItem call).filterMap (StreamItem.piece codec) = pieces codec (c1 ++ [call]) := by
      rw [List.filterMap_append, inOrder_pieces codec c1 o1 hl, pieces_snoc]
      congr 1
      cases call with
      | nalu d ts l rc =>
        have hp : (StreamItem.nalu d ts).piece codec = piece codec (.nalu d ts l rc) := by simp only [StreamItem.piece, piece]
        rw [← hp]
        show [StreamItem.nalu d ts].filterMap (StreamItem.piece codec) = _
        cases hq : (StreamItem.nalu d ts).piece codec <;> simp [hq]
      | _ => rfl
    rw [e6, e7, e8, ← hm, List.take_append_of_le_length (by omega)]
    have h9 : ((gops (pieces codec (c1 ++ [call]))).1.take ((delivered o1).length + 1)).flatten.length ≤ (gops (pieces codec (c1 ++ [call]))).1.flatten.length := by
      conv => rhs; rw [← List.take_append_drop ((delivered o1).length + 1) (gops (pieces codec (c1 ++ [call]))).1, List.flatten_append, List.length_append]
      omega
    omega

theorem mem_inOrder {hs : Hashing} {codec : Codec} {oid : Bytes} {v : UInt8 × UInt8 × UInt8} {setup : List Setting}
    {cs : List SCall} {s : Signer} {os : List Obs} (h : Undisturbed hs codec oid v setup cs s os) {d : Bytes} {ts : Option Int64}
    (hd : StreamItem.nalu d ts ∈ inOrder cs (os.drop setup.length)) : ∃ l rc, SCall.nalu d ts l rc ∈ cs := by
  obtain ⟨x, y, rfl, hx, hy, -⟩ := h.observed
  have hdrop : (x ++ y).drop setup.length = y := by rw [← hx, List.drop_left]
  rw [hdrop] at hd
  exact given_of (by rw [inOrder_given cs y hy]; exact List.prefix_refl _) hd

end SV
