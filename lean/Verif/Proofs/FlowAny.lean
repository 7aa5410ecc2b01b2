import Verif.Proofs.FlowBad
import Verif.Proofs.FlowStream
import Verif.Spec.Damage
import Verif.Props.AuthSame
/-! A stream in which some GOPs are not as they were signed. -/
namespace SV
open Spec
namespace Validator

variable {Γ : Scene}

theorem pieceHashes_alike {H : Bytes → Bytes} {a b : List Piece} (h : Alike a b) : ∀ r, pieceHashes H r a = pieceHashes H r b := by
  unfold Alike at h
  induction a generalizing b with
  | nil => cases b with
    | nil => intro r; rfl
    | cons q b => simp at h
  | cons p a ih =>
    cases b with
    | nil => simp at h
    | cons q b =>
      simp only [List.map_cons, List.cons.injEq, Prod.mk.injEq] at h
      intro r
      unfold pieceHashes
      rw [h.1.1, h.1.2, ih h.2]

theorem pieceHashes_others {H : Bytes → Bytes} {t : List Piece} (h : ∀ q ∈ t, q.first = false) (r : Bytes) :
    pieceHashes H r t = t.map fun q => H (r ++ H q.bytes) := by
  induction t with
  | nil => rfl
  | cons q t ih =>
    unfold pieceHashes
    rw [h q (by simp), List.map_cons, ← ih fun x hx => h x (by simp [hx])]
    rfl

theorem pieceHashes_started {H : Bytes → Bytes} {p : Piece} {t : List Piece} (hp : p.first = true) (h : ∀ q ∈ t, q.first = false) (r : Bytes) :
    pieceHashes H r (p :: t) = H p.bytes :: t.map fun q => H (H p.bytes ++ H q.bytes) := by
  unfold pieceHashes
  rw [hp, ← pieceHashes_others h]
  rfl

theorem flatten_inj {n : Nat} (hn : 1 ≤ n) : ∀ {a b : List Bytes}, (∀ x ∈ a, x.length = n) → (∀ x ∈ b, x.length = n) → a.flatten = b.flatten → a = b := by
  intro a
  induction a with
  | nil =>
    intro b _ hb h
    cases b with
    | nil => rfl
    | cons x b =>
      have h1 := congrArg List.length h
      have h2 := hb x (by simp)
      rw [List.flatten_cons, List.length_append, List.flatten_nil, List.length_nil] at h1
      omega
  | cons x a ih =>
    intro b ha hb h
    cases b with
    | nil =>
      have h1 := congrArg List.length h
      have h2 := ha x (by simp)
      rw [List.flatten_cons, List.length_append, List.flatten_nil, List.length_nil] at h1
      omega
    | cons y b =>
      rw [List.flatten_cons, List.flatten_cons] at h
      obtain ⟨h1, h2⟩ := List.append_inj h ((ha x (by simp)).trans (hb y (by simp)).symm)
      rw [h1, ih (fun z hz => ha z (by simp [hz])) (fun z hz => hb z (by simp [hz])) h2]

/-- Without collisions a GOP hash tells the GOP. -/
theorem alike_of_hash (hΓ : Γ.Ok) {a b : List Piece} (ha : Started a) (hb : Started b) {l : List Bytes} (hc : NoClash Γ.H l)
    (hla : ∀ x ∈ hashInputs Γ.H a, x ∈ l) (hlb : ∀ x ∈ hashInputs Γ.H b, x ∈ l) {r r' : Bytes}
    (h : Γ.H (pieceHashes Γ.H r a).flatten = Γ.H (pieceHashes Γ.H r' b).flatten) : Alike a b := by
  obtain ⟨p, t, rfl, hp, ht⟩ := ha
  obtain ⟨q, u, rfl, hq, hu⟩ := hb
  rw [pieceHashes_started hp ht, pieceHashes_started hq hu] at h
  have h1 := hc.1 _ (hla _ (by simp [hashInputs])) _ (hlb _ (by simp [hashInputs])) h
  have h2 := flatten_inj hΓ.pos (by
    intro x hx
    rcases List.mem_cons.1 hx with rfl | hx
    · exact hΓ.len _
    · obtain ⟨w, -, rfl⟩ := List.mem_map.1 hx
      exact hΓ.len _) (by
    intro x hx
    rcases List.mem_cons.1 hx with rfl | hx
    · exact hΓ.len _
    · obtain ⟨w, -, rfl⟩ := List.mem_map.1 hx
      exact hΓ.len _) h1
  simp only [List.cons.injEq] at h2
  obtain ⟨h3, h4⟩ := h2
  have h5 := hc.1 _ (hla _ (by simp [hashInputs])) _ (hlb _ (by simp [hashInputs])) h3
  unfold Alike
  rw [List.map_cons, List.map_cons, hp, hq, h5]
  congr 1
  rw [h5] at h4
  have hla' : ∀ w ∈ t, w.bytes ∈ l ∧ Γ.H q.bytes ++ Γ.H w.bytes ∈ l := fun w hw =>
    ⟨hla _ (by simp only [hashInputs, List.mem_cons, List.mem_append, List.mem_map]; exact .inr (.inl (.inl ⟨w, hw, rfl⟩))),
     hla _ (by simp only [hashInputs, List.mem_cons, List.mem_append, List.mem_map]; exact .inr (.inl (.inr ⟨w, hw, by rw [h5]⟩)))⟩
  have hlb' : ∀ w ∈ u, w.bytes ∈ l ∧ Γ.H q.bytes ++ Γ.H w.bytes ∈ l := fun w hw =>
    ⟨hlb _ (by simp only [hashInputs, List.mem_cons, List.mem_append, List.mem_map]; exact .inr (.inl (.inl ⟨w, hw, rfl⟩))),
     hlb _ (by simp only [hashInputs, List.mem_cons, List.mem_append, List.mem_map]; exact .inr (.inl (.inr ⟨w, hw, rfl⟩)))⟩
  clear hla hlb h h1
  induction t generalizing u with
  | nil => cases u with
    | nil => rfl
    | cons y u => simp at h4
  | cons x t ih =>
    cases u with
    | nil => simp at h4
    | cons y u =>
      simp only [List.map_cons, List.cons.injEq] at h4 ⊢
      refine ⟨?_, ih (fun w hw => ht w (by simp [hw])) u (fun w hw => hu w (by simp [hw])) h4.2 (fun w hw => hla' w (by simp [hw])) (fun w hw => hlb' w (by simp [hw]))⟩
      have e := hc.1 _ (hla' x (by simp)).2 _ (hlb' y (by simp)).2 h4.1
      have e2 := List.append_cancel_left e
      rw [ht x (by simp), hu y (by simp), hc.1 _ (hla' x (by simp)).1 _ (hlb' y (by simp)).1 e2]

theorem firstHash_eq (gs : List (List Piece)) (k : Nat) : firstHash Γ gs k = ((linkBytes gs k).map Γ.H).getD [] := by
  unfold firstHash linkBytes
  rw [Option.map_map]
  rfl

theorem InSync.weaken {b : Bool} {q : List Piece} {cnt : UInt32} {link : Bytes} {s : Validator} (h : InSync Γ b q cnt link s) : InSync Γ false q cnt link s :=
  ⟨h.codec, h.legacy, h.signing, h.afterNext, h.knows, h.wf, h.rows, h.unused, h.good, h.budLen, h.count, h.linkLen, h.link, h.primary, h.version,
    (fun hb => by cases hb), h.notFirst, h.synced, h.seen⟩

/-- What follows the first GOPs starts with the first slice of an intra picture. -/
theorem rest_first {rs : List (List Piece)} {cur n rest : List Piece} {k : Nat} (hrs : ∀ g ∈ rs, Started g) (hcur : cur = [] ∨ Started cur)
    (hn : n <+: rs.flatten ++ cur) (hrest : (rs.take k).flatten ++ rest = n) : ∀ q u, rest = q :: u → q.first = true := by
  rintro q u rfl
  have hall : rs.flatten = (rs.take k).flatten ++ (rs.drop k).flatten := by rw [← List.flatten_append, List.take_append_drop]
  rw [← hrest, hall, List.append_assoc] at hn
  have hr := (List.prefix_append_right_inj _).1 hn
  obtain ⟨w, hw⟩ := hr
  cases hdr : rs.drop k with
  | cons g gs' =>
    obtain ⟨p', t', rfl, hpf', -⟩ := hrs g (List.mem_of_mem_drop (by rw [hdr]; exact List.mem_cons_self))
    rw [hdr] at hw
    simp at hw
    rw [hw.1]; exact hpf'
  | nil =>
    rw [hdr] at hw
    rcases hcur with rfl | ⟨p', t', rfl, hpf', -⟩
    · simp at hw
    · simp at hw
      rw [hw.1]; exact hpf'

/-- Enough for `R` to hold for all reports. -/
structure Judges (R : Nat → Nat → List Piece → Report → Prop) (Γ : Scene) (gs rs : List (List Piece)) : Prop where
  intact : ∀ {k rest gop r}, rs[k]? = some gop → Intact gs rs k → R k rest gop r
  hurt : ∀ {k rest gop got i d r}, k ≠ 0 → gs[k]? = some gop → rs[k]? = some got → Started got → ¬ Intact gs rs k → i.linked = firstHash Γ gs k →
    (∃ r0, i.gopHash = Γ.H (pieceHashes Γ.H r0 gop).flatten ∧
      ∀ cap, Γ.full = some cap → gop.length * Γ.size ≤ cap → i.list = (pieceHashes Γ.H r0 gop).flatten) → (Γ.lists = false → d.hashList = []) →
    AnyReport Γ i got (firstHash Γ rs k) d rest r → R k rest got r

theorem linkBytes_some {gs : List (List Piece)} {k : Nat} (hk : k - 1 < gs.length) (hgs : ∀ g ∈ gs, Started g) (H : Bytes → Bytes) :
    ∃ x, linkBytes gs k = some x ∧ x ∈ gs.flatMap (hashInputs H) := by
  obtain ⟨g, hg⟩ : ∃ g, gs[k - 1]? = some g := ⟨_, List.getElem?_eq_getElem hk⟩
  obtain ⟨p, t, rfl, -, -⟩ := hgs g (List.mem_of_getElem? hg)
  refine ⟨p.bytes, by unfold linkBytes; rw [hg]; rfl, List.mem_flatMap.2 ⟨_, List.mem_of_getElem? hg, by simp [hashInputs]⟩⟩

/-- A wrong link is noticed. -/
theorem link_differs {gs rs : List (List Piece)} {k : Nat} (hrs : ∀ g ∈ rs, Started g) (hgs : ∀ g ∈ gs, Started g) (hcol : NoClash Γ.H ((gs ++ rs).flatMap (hashInputs Γ.H)))
    (hk : k < rs.length) (hk' : k < gs.length) (hne : linkBytes rs k ≠ linkBytes gs k) :
    firstHash Γ rs k ≠ firstHash Γ gs k ∧ firstHash Γ rs k ≠ List.replicate Γ.size 0 := by
  obtain ⟨x, hx, hxm⟩ := linkBytes_some (k := k) (by omega) hrs Γ.H
  obtain ⟨y, hy, hym⟩ := linkBytes_some (k := k) (by omega) hgs Γ.H
  have hxl : x ∈ (gs ++ rs).flatMap (hashInputs Γ.H) := by rw [List.flatMap_append]; exact List.mem_append_right _ hxm
  have hyl : y ∈ (gs ++ rs).flatMap (hashInputs Γ.H) := by rw [List.flatMap_append]; exact List.mem_append_left _ hym
  have hfx : firstHash Γ rs k = Γ.H x := by rw [firstHash_eq, hx]; rfl
  have hfy : firstHash Γ gs k = Γ.H y := by rw [firstHash_eq, hy]; rfl
  rw [hfx, hfy]
  refine ⟨fun hc => hne ?_, fun hc => ?_⟩
  · rw [hx, hy, hcol.1 x hxl y hyl hc]
  · obtain ⟨z, hz, hz0⟩ := hcol.2 x hxl
    rw [hc] at hz
    exact hz0 (List.eq_of_mem_replicate hz)

/-- The inputs of the hashes of a GOP are among those of all GOPs. -/
theorem inputs_mem {gs rs : List (List Piece)} {k : Nat} {g : List Piece} (h : gs[k]? = some g ∨ rs[k]? = some g) (H : Bytes → Bytes) :
    ∀ x ∈ hashInputs H g, x ∈ (gs ++ rs).flatMap (hashInputs H) := by
  intro x hx
  rw [List.flatMap_append]
  rcases h with h | h
  · exact List.mem_append_left _ (List.mem_flatMap.2 ⟨_, List.mem_of_getElem? h, hx⟩)
  · exact List.mem_append_right _ (List.mem_flatMap.2 ⟨_, List.mem_of_getElem? h, hx⟩)

/-- Without collisions another GOP has another GOP hash. -/
theorem hash_differs (hΓ : Γ.Ok) {gs rs : List (List Piece)} {k : Nat} {gop got : List Piece} (hgs : ∀ g ∈ gs, Started g) (hst : Started got)
    (hcol : NoClash Γ.H ((gs ++ rs).flatMap (hashInputs Γ.H))) (h1 : gs[k]? = some gop) (h2 : rs[k]? = some got) (hal : ¬ Alike got gop) {h : Bytes}
    (hh : ∃ r0, h = Γ.H (pieceHashes Γ.H r0 gop).flatten) : ∀ r0, h ≠ Γ.H (pieceHashes Γ.H r0 got).flatten := by
  intro r0 hc
  obtain ⟨r1, e⟩ := hh
  rw [e] at hc
  exact hal (alike_of_hash hΓ hst (hgs gop (List.mem_of_getElem? h1)) hcol (inputs_mem (.inr h2) _) (inputs_mem (.inl h1) _) hc.symm)

/-- Nothing more is claimed. -/
theorem judges_any (gs rs : List (List Piece)) : Judges (fun k _ _ r => false = true → ¬ Intact gs rs k → r.latest.auth = .notOk) Γ gs rs :=
  ⟨fun _ _ hx => absurd hx (by decide), fun _ _ _ _ _ _ _ _ _ hx => absurd hx (by decide)⟩

/-- Without lists of hashes a damaged GOP is not OK. -/
theorem judges_gop (hΓ : Γ.Ok) (hnl : Γ.lists = false) {gs rs : List (List Piece)} (hrs : ∀ g ∈ rs, Started g) (hgs : ∀ g ∈ gs, Started g)
    (hcol : NoClash Γ.H ((gs ++ rs).flatMap (hashInputs Γ.H))) : Judges (fun k _ _ r => true = true → ¬ Intact gs rs k → r.latest.auth = .notOk) Γ gs rs := by
  refine ⟨fun _ h _ hc => absurd h hc, ?_⟩
  intro k rest gop got i d r hk0 hgop hgot hst hint hlink hhash hlist a3 _ _
  have hl := hlist hnl
  by_cases hal : Alike got gop
  · have hne : linkBytes rs k ≠ linkBytes gs k := fun hc => hint ⟨⟨_, _, hgop, hgot, hal⟩, fun _ => hc⟩
    refine a3.link0 ?_
    rw [hlink]
    exact link_differs hrs hgs hcol (List.getElem?_eq_some_iff.1 hgot).1 (List.getElem?_eq_some_iff.1 hgop).1 hne
  · obtain ⟨r1, e, -⟩ := hhash
    refine a3.other (hash_differs hΓ hgs hst hcol hgop hgot hal ⟨r1, e⟩) fun r0 hs => ?_
    rw [hl] at hs
    have h0 : chunk Γ.size [] = [] := by
      unfold chunk
      rw [List.length_nil, Nat.zero_div]; rfl
    obtain ⟨p, t, rfl, -⟩ := hst
    rw [h0] at hs
    have := List.sublist_nil.1 hs
    unfold pieceHashes at this
    cases this

theorem _root_.SV.Spec.Thinned.not_alike {a b : List Piece} (h : Thinned a b) : ¬ Alike a b := by
  intro hc
  have := congrArg List.length hc
  rw [List.length_map, List.length_map] at this
  have := h.2
  omega

theorem pieceHashes_len (H : Bytes → Bytes) (r : Bytes) (ps : List Piece) : (pieceHashes H r ps).length = ps.length := by
  induction ps generalizing r with
  | nil => rfl
  | cons p ps ih => unfold pieceHashes; rw [List.length_cons, ih, List.length_cons]

theorem pieceHashes_size (hΓ : Γ.Ok) (r : Bytes) (ps : List Piece) : ∀ x ∈ pieceHashes Γ.H r ps, x.length = Γ.size := by
  induction ps generalizing r with
  | nil => intro x hx; cases hx
  | cons p ps ih =>
    intro x hx
    unfold pieceHashes at hx
    rcases List.mem_cons.1 hx with rfl | hx
    · split <;> exact hΓ.len _
    · exact ih _ x hx

/-- What was received in order has its hashes in order. -/
theorem hashes_sublist {H : Bytes → Bytes} {a b : List Piece} (ha : Started a) (hb : Started b) (h : (a.map fun p => (p.first, p.bytes)).Sublist (b.map fun p => (p.first, p.bytes))) (r r' : Bytes) :
    (pieceHashes H r a).Sublist (pieceHashes H r' b) := by
  obtain ⟨p, t, rfl, hp, ht⟩ := ha
  obtain ⟨q, u, rfl, hq, hu⟩ := hb
  rw [pieceHashes_started hp ht, pieceHashes_started hq hu]
  rw [List.map_cons, List.map_cons] at h
  have key : p.bytes = q.bytes ∧ (t.map fun p => (p.first, p.bytes)).Sublist (u.map fun p => (p.first, p.bytes)) := by
    generalize e : (q.first, q.bytes) = y at h
    cases h with
    | cons _ h =>
      have := h.subset List.mem_cons_self
      obtain ⟨w, hw, ew⟩ := List.mem_map.1 this
      have h1 := congrArg Prod.fst ew
      dsimp only at h1
      rw [hp, hu w hw] at h1; cases h1
    | cons_cons _ h => exact ⟨(congrArg Prod.snd e).symm, h⟩
  rw [key.1]
  refine List.Sublist.cons_cons _ ?_
  have := key.2.map fun x => H (H q.bytes ++ H x.2)
  rw [List.map_map, List.map_map] at this
  exact this

theorem sublist_of_map {α β γ : Type} {f : α → β} {g : α → γ} : ∀ {a b : List α}, (∀ x ∈ a, ∀ y ∈ b, f x = f y → g x = g y) → (a.map f).Sublist (b.map f) → (a.map g).Sublist (b.map g) := by
  intro a b
  induction b generalizing a with
  | nil =>
    intro _ h
    have := List.sublist_nil.1 h
    rw [List.map_eq_nil_iff] at this
    rw [this]; exact List.nil_sublist _
  | cons y b ih =>
    intro hi h
    cases a with
    | nil => exact List.nil_sublist _
    | cons x a =>
      rw [List.map_cons, List.map_cons] at h
      generalize e : f y = z at h
      cases h with
      | cons _ h => exact (ih (a := x :: a) (fun x' hx' y' hy' => hi x' hx' y' (by simp [hy'])) h).cons _
      | cons_cons _ h =>
        rw [List.map_cons, List.map_cons, hi x (by simp) y (by simp) e.symm]
        exact (ih (fun x' hx' y' hy' => hi x' (by simp [hx']) y' (by simp [hy'])) h).cons_cons _

/-- Without collisions the order of the hashes tells what was received in order. -/
theorem pieces_sublist {gs rs : List (List Piece)} {k : Nat} {a b : List Piece} (ha : Started a) (hb : Started b) (h1 : gs[k]? = some b) (h2 : rs[k]? = some a)
    (hcol : NoClash Γ.H ((gs ++ rs).flatMap (hashInputs Γ.H))) (hm : NoMasks Γ.H gs rs) {r r' : Bytes}
    (h : (pieceHashes Γ.H r a).Sublist (pieceHashes Γ.H r' b)) : (a.map fun p => (p.first, p.bytes)).Sublist (b.map fun p => (p.first, p.bytes)) := by
  have hla := inputs_mem (gs := gs) (.inr h2) Γ.H
  have hlb := inputs_mem (rs := rs) (.inl h1) Γ.H
  obtain ⟨p, t, rfl, hp, ht⟩ := ha
  obtain ⟨q, u, rfl, hq, hu⟩ := hb
  rw [pieceHashes_started hp ht, pieceHashes_started hq hu] at h
  have hla' : ∀ w ∈ t, w.bytes ∈ (gs ++ rs).flatMap (hashInputs Γ.H) ∧ Γ.H p.bytes ++ Γ.H w.bytes ∈ (gs ++ rs).flatMap (hashInputs Γ.H) := fun w hw =>
    ⟨hla _ (by simp only [hashInputs, List.mem_cons, List.mem_append, List.mem_map]; exact .inr (.inl (.inl ⟨w, hw, rfl⟩))),
     hla _ (by simp only [hashInputs, List.mem_cons, List.mem_append, List.mem_map]; exact .inr (.inl (.inr ⟨w, hw, rfl⟩)))⟩
  have hlb' : ∀ w ∈ u, w.bytes ∈ (gs ++ rs).flatMap (hashInputs Γ.H) ∧ Γ.H q.bytes ++ Γ.H w.bytes ∈ (gs ++ rs).flatMap (hashInputs Γ.H) := fun w hw =>
    ⟨hlb _ (by simp only [hashInputs, List.mem_cons, List.mem_append, List.mem_map]; exact .inr (.inl (.inl ⟨w, hw, rfl⟩))),
     hlb _ (by simp only [hashInputs, List.mem_cons, List.mem_append, List.mem_map]; exact .inr (.inl (.inr ⟨w, hw, rfl⟩)))⟩
  have hpl : p.bytes ∈ (gs ++ rs).flatMap (hashInputs Γ.H) := hla _ (by simp [hashInputs])
  have hql : q.bytes ∈ (gs ++ rs).flatMap (hashInputs Γ.H) := hlb _ (by simp [hashInputs])
  generalize e : Γ.H q.bytes = y at h
  cases h with
  | cons _ h =>
    exfalso
    obtain ⟨w, hw, ew⟩ := List.mem_map.1 (h.subset List.mem_cons_self)
    rw [← e] at ew
    exact hm k q u p t h1 h2 w hw (hcol.1 _ hpl _ (hlb' w hw).2 ew.symm)
  | cons_cons _ h =>
    have epq := hcol.1 _ hpl _ hql e.symm
    rw [List.map_cons, List.map_cons, hp, hq, epq]
    refine List.Sublist.cons_cons _ (sublist_of_map (f := fun w : Piece => Γ.H (Γ.H p.bytes ++ Γ.H w.bytes)) ?_ h)
    intro x hx y hy hxy
    have h3 := hcol.1 _ (hla' x hx).2 _ (by rw [epq]; exact (hlb' y hy).2) hxy
    have h4 := hcol.1 _ (hla' x hx).1 _ (hlb' y hy).1 (List.append_cancel_left h3)
    rw [ht x hx, hu y hy, h4]

/-- With lists of hashes the report says what has happened. -/
theorem judges_list (hΓ : Γ.Ok) {cap : Nat} (hf : Γ.full = some cap) {gs rs : List (List Piece)} (hrs : ∀ g ∈ rs, Started g) (hgs : ∀ g ∈ gs, Started g)
    (hcol : NoClash Γ.H ((gs ++ rs).flatMap (hashInputs Γ.H))) (hm : NoMasks Γ.H gs rs) :
    Judges (fun k rest got r => ∀ g, gs[k]? = some g → g.length * Γ.size ≤ cap →
      (linkBytes rs k = linkBytes gs k → Thinned got g → LostNow g.length got.length rest r) ∧
      (¬ Intact gs rs k → ¬ (linkBytes rs k = linkBytes gs k ∧ Thinned got g) → r.latest.auth = .notOk)) Γ gs rs := by
  constructor
  · intro k rest got r hgot hint g hg _
    refine ⟨fun _ ht => ?_, fun hc => absurd hint hc⟩
    obtain ⟨⟨g', h', e1, e2, hal⟩, -⟩ := hint
    rw [hg] at e1
    rw [hgot] at e2
    cases e1
    cases e2
    exact absurd hal ht.not_alike
  · intro k rest gop got i d r hk0 hgop hgot hst hint hlink hhash _ a3 g hg hle
    rw [hgop] at hg
    cases hg
    obtain ⟨r1, e, hl⟩ := hhash
    have hl := hl cap hf hle
    have hgst := hgs gop (List.mem_of_getElem? hgop)
    have hpos := hΓ.pos
    have hne : i.list ≠ [] := by
      obtain ⟨q, u, rfl, -⟩ := hgst
      intro hc
      rw [hl] at hc
      unfold pieceHashes at hc
      rw [List.flatten_cons] at hc
      have h1 := congrArg List.length hc
      rw [List.length_append, List.length_nil] at h1
      have h2 : (if q.first = true then Γ.H q.bytes else Γ.H (r1 ++ Γ.H q.bytes)).length = Γ.size := by split <;> exact hΓ.len _
      omega
    have hd := a3.told hne
    have hch : chunk Γ.size d.hashList = pieceHashes Γ.H r1 gop := by
      rw [hd, hl]
      exact chunk_flatten hpos (pieceHashes_size hΓ r1 gop)
    have hlen : (chunk Γ.size d.hashList).length = gop.length := by rw [hch, pieceHashes_len]
    constructor
    · intro hlk ht
      rw [← hlen]
      refine a3.lost (by rw [hd]; exact hne) (hash_differs hΓ hgs hst hcol hgop hgot ht.not_alike ⟨r1, e⟩) ?_ (fun r0 => ?_) (by rw [hlen]; exact ht.2)
      · rw [hlink, firstHash_eq, firstHash_eq, hlk]
      · rw [hch]; exact hashes_sublist hst hgst ht.1 _ _
    · intro _ hno
      by_cases hlk : linkBytes rs k = linkBytes gs k
      · have hal : ¬ Alike got gop := fun hc => hint ⟨⟨_, _, hgop, hgot, hc⟩, fun _ => hlk⟩
        refine a3.other (hash_differs hΓ hgs hst hcol hgop hgot hal ⟨r1, e⟩) fun r0 hs => ?_
        rw [hch] at hs
        have h1 := pieces_sublist hst hgst hgop hgot hcol hm hs
        have h2 := h1.length_le
        rw [List.length_map, List.length_map] at h2
        by_cases h3 : got.length < gop.length
        · exact hno ⟨hlk, h1, h3⟩
        · exact hal (h1.eq_of_length (by rw [List.length_map, List.length_map]; omega))
      · refine a3.link0 ?_
        rw [hlink]
        exact link_differs hrs hgs hcol (List.getElem?_eq_some_iff.1 hgot).1 (List.getElem?_eq_some_iff.1 hgop).1 hlk

/-- A SEI, whatever was received for its GOP. -/
theorem at_any (hΓ : Γ.Ok) {R : Nat → Nat → List Piece → Report → Prop} {gs rs : List (List Piece)} (hstr : Judges R Γ gs rs) {cur n : List Piece} {k : Nat} {v : Validator} (h : At Γ false rs n k v) {b : Bytes}
    (hs : SeiOf Γ gs k b) (hrs : ∀ g ∈ rs, Started g) (hcur : cur = [] ∨ Started cur) (hn : n <+: rs.flatten ++ cur) (hk : k < rs.length)
    (hle : (rs.take (k + 1)).flatten.length ≤ n.length) (h0 : k = 0 → Intact gs rs 0) :
    ∃ v' r gop, v.add Γ.env b = .ok v' (some r) ∧ At Γ false rs n (k + 1) v' ∧ rs[k]? = some gop ∧ r.latest.keyChanged = false ∧
      r.latest.pending = (n.length - (rs.take (k + 1)).flatten.length : Nat) ∧
      (Intact gs rs k → GoodNow gop.length (n.length - (rs.take (k + 1)).flatten.length) r) ∧ R k (n.length - (rs.take (k + 1)).flatten.length) gop r := by
  obtain ⟨hb, i, m, m', gop, hp, hsei, hgop, hcnt, hlink, hlists, hnum, hfirst⟩ := hs.sound
  have hhash : ∃ r0, i.gopHash = Γ.H (pieceHashes Γ.H r0 gop).flatten := by
    obtain ⟨r0, h, -⟩ := hlists
    exact ⟨r0, h⟩
  obtain ⟨got, hgot⟩ : ∃ g, rs[k]? = some g := ⟨_, List.getElem?_eq_getElem hk⟩
  have htake : rs.take (k + 1) = rs.take k ++ [got] := by rw [List.take_add_one, hgot]; rfl
  have hflat : (rs.take (k + 1)).flatten = (rs.take k).flatten ++ got := by rw [htake, List.flatten_append]; simp
  have hstd := hrs got (List.mem_of_getElem? hgot)
  obtain ⟨p, t, rfl, hpf, hto⟩ := hstd
  have hall : rs.flatten = (rs.take (k + 1)).flatten ++ (rs.drop (k + 1)).flatten := by rw [← List.flatten_append, List.take_append_drop]
  have hpre : (rs.take (k + 1)).flatten <+: n := by
    refine List.prefix_of_prefix_length_le ?_ hn hle
    rw [hall, List.append_assoc]; exact List.prefix_append _ _
  obtain ⟨rest, hrest⟩ := hpre
  have hnext := rest_first hrs hcur hn hrest
  have hnl : n.length = (rs.take (k + 1)).flatten.length + rest.length := by rw [← hrest, List.length_append]
  have hq : n.drop (rs.take k).flatten.length = p :: t ++ rest := by
    rw [← hrest, hflat, List.append_assoc, List.drop_left]
  have hrd : n.drop (rs.take (k + 1)).flatten.length = rest := by rw [← hrest, List.drop_left]
  have hnr : n.length - (rs.take (k + 1)).flatten.length = rest.length := by omega
  have hfh : firstHash Γ rs (k + 1) = Γ.H p.bytes := by
    unfold firstHash
    rw [Nat.add_sub_cancel, hgot]; rfl
  have fin : ∀ v', InSync Γ false rest i.counter (Γ.H p.bytes) v' → At Γ false rs n (k + 1) v' := by
    intro v' h1
    refine ⟨hle, fun hc => absurd hc (Nat.succ_ne_zero k), fun _ => ?_⟩
    rw [hrd, hfh, ← Nat.add_assoc, ← hcnt]; exact h1
  have hcnt' : i.counter = UInt32.ofNat (Γ.base + k) + 1 := by rw [hcnt, UInt32.ofNat_add]; rfl
  by_cases hint : Intact gs rs k
  · have hint' := hint
    obtain ⟨⟨g, h', e1, e2, hal⟩, hlk⟩ := hint
    rw [hgop] at e1
    rw [hgot] at e2
    cases e1
    cases e2
    have hlen : gop.length = t.length + 1 := by
      have := congrArg List.length hal
      simp only [List.length_map, List.length_cons] at this
      exact this.symm
    have hhash' : ∃ r0, i.gopHash = Γ.H (pieceHashes Γ.H r0 (p :: t)).flatten := by
      obtain ⟨r0, e⟩ := hhash
      exact ⟨r0, by rw [e, pieceHashes_alike hal]⟩
    have hnum' : i.num.toNat = (t.length + 1) % 65536 := by rw [hnum, hlen]; simp
    have hnle : i.num.toNat ≤ t.length + 1 := by rw [hnum']; exact Nat.mod_le _ _
    have good : ∀ b r, GoodReport b i (t.length + 1) rest.length r → r.latest.keyChanged = false ∧
        r.latest.pending = (n.length - (rs.take (k + 1)).flatten.length : Nat) ∧
        (Intact gs rs k → GoodNow (p :: t).length (n.length - (rs.take (k + 1)).flatten.length) r) ∧ R k (n.length - (rs.take (k + 1)).flatten.length) (p :: t) r := by
      intro b r h2
      rw [hnr]
      exact ⟨h2.key, h2.pending, fun _ => ⟨h2.auth, by rw [h2.expected, hnum']; rfl, h2.received, h2.marks⟩, hstr.intact hgot hint'⟩
    by_cases hk0 : k = 0
    · subst hk0
      have he : Early Γ (p :: t ++ rest) v := by
        rw [← hq]; exact h.early rfl
      obtain ⟨f1, f2⟩ := hfirst rfl
      obtain ⟨v', r, a1, a2, a3⟩ := early_sei hΓ he hb hp hsei f1 f2 hpf hto hnext (hΓ.over.imp_left fun e => by rw [hcnt, e]; rfl) hhash' hnle
      exact ⟨v', r, _, a1, fin v' a2.weaken, hgot, good _ _ a3⟩
    · have he := h.sync hk0
      rw [hq] at he
      have hl : i.linked = firstHash Γ rs k := by
        rw [hlink hk0, firstHash_eq, firstHash_eq, hlk hk0]
      obtain ⟨v', r, a1, a2, a3⟩ := sync_sei hΓ he hb hp hsei hpf hto hnext hcnt' hl hhash' hnle
      exact ⟨v', r, _, a1, fin v' a2, hgot, good _ _ a3⟩
  · have hk0 : k ≠ 0 := by
      rintro rfl
      exact hint (h0 rfl)
    have he := h.sync hk0
    rw [hq] at he
    obtain ⟨v', r, a1, a2, a3⟩ := sync_any hΓ he hb hp hsei hpf hto hnext hcnt'
    refine ⟨v', r, _, a1, fin v' a2, hgot, a3.key, by rw [hnr]; exact a3.pending, fun hc => absurd hc hint, ?_⟩
    rw [hnr]
    exact hstr.hurt hk0 hgop hgot ⟨p, t, rfl, hpf, hto⟩ hint (hlink hk0) hlists a2.knows.noList a3

/-- The rest of a stream. -/
theorem any_run (hΓ : Γ.Ok) {R : Nat → Nat → List Piece → Report → Prop} {gs rs : List (List Piece)} (hstr : Judges R Γ gs rs) {cur : List Piece} (hrs : ∀ g ∈ rs, Started g)
    (hcur : cur = [] ∨ Started cur) {P : Prop} (h0 : P → Intact gs rs 0) :
    ∀ (st a : List StreamItem) (v : Validator), ((a ++ st).filterMap StreamItem.sei? ≠ [] → P) → At Γ false rs (a.filterMap (StreamItem.piece Γ.codec)) (a.filterMap StreamItem.sei?).length v →
      (∀ d ts, StreamItem.nalu d ts ∈ st → Ordinary Γ.codec d) →
      (∀ j b, ((a ++ st).filterMap StreamItem.sei?)[j]? = some b → SeiOf Γ gs j b) →
      (a ++ st).filterMap (StreamItem.piece Γ.codec) <+: rs.flatten ++ cur →
      (∀ x b c, a ++ st = x ++ .sei b :: c → (x.filterMap StreamItem.sei?).length < rs.length ∧
        (rs.take ((x.filterMap StreamItem.sei?).length + 1)).flatten.length ≤ (x.filterMap (StreamItem.piece Γ.codec)).length) →
      ∃ v' os, authRun Γ.env v (st.map fun x => .nalu x.bytes) = .ok (v', os) ∧
        Reported R Γ.codec gs rs (a.filterMap (StreamItem.piece Γ.codec)).length (a.filterMap StreamItem.sei?).length st os := by
  intro st
  induction st with
  | nil => intro a v _ h _ _ _ _; exact ⟨v, [], rfl, trivial⟩
  | cons x st ih =>
    intro a v hP h hord hsei hpre hafter
    have hassoc : a ++ x :: st = (a ++ [x]) ++ st := by simp
    cases x with
    | nalu d ts =>
      obtain ⟨v1, r, h1, h2, h3⟩ := at_nalu hΓ h (ts := ts) (hord d ts List.mem_cons_self)
      have e1 : (a ++ [StreamItem.nalu d ts]).filterMap StreamItem.sei? = a.filterMap StreamItem.sei? := by
        rw [List.filterMap_append]; simp [StreamItem.sei?]
      have e2 : (a ++ [StreamItem.nalu d ts]).filterMap (StreamItem.piece Γ.codec) =
          a.filterMap (StreamItem.piece Γ.codec) ++ ((StreamItem.nalu d ts).piece Γ.codec).toList := by
        rw [List.filterMap_append]
        congr 1
      rw [← e1, ← e2] at h2
      rw [hassoc] at hsei hpre hafter hP
      obtain ⟨v', os, g1, g2⟩ := ih (a ++ [.nalu d ts]) v1 hP h2 (fun d ts hd => hord d ts (List.mem_cons_of_mem _ hd)) hsei hpre hafter
      refine ⟨v', _, authRun_ok h1 g1, ?_⟩
      rw [e1, e2, List.length_append] at g2
      exact ⟨rfl, h3, g2⟩
    | sei b =>
      have hs : SeiOf Γ gs (a.filterMap StreamItem.sei?).length b := by
        refine hsei _ b ?_
        rw [List.filterMap_append, List.getElem?_append_right (Nat.le_refl _), Nat.sub_self]
        simp [StreamItem.sei?]
      have hn : a.filterMap (StreamItem.piece Γ.codec) <+: rs.flatten ++ cur := by
        rw [List.filterMap_append] at hpre
        exact (List.prefix_append _ _).trans hpre
      obtain ⟨k1, k2⟩ := hafter a b st rfl
      obtain ⟨v1, r, gop, h1, h2, h3, h4, h5, h6, h7⟩ := at_any hΓ hstr h hs hrs hcur hn k1 k2 (fun _ => h0 (hP (by simp [StreamItem.sei?])))
      have e1 : ((a ++ [StreamItem.sei b]).filterMap StreamItem.sei?).length = (a.filterMap StreamItem.sei?).length + 1 := by
        rw [List.filterMap_append, List.length_append]; rfl
      have e2 : (a ++ [StreamItem.sei b]).filterMap (StreamItem.piece Γ.codec) = a.filterMap (StreamItem.piece Γ.codec) := by
        rw [List.filterMap_append]; simp [StreamItem.piece]
      rw [← e1, ← e2] at h2
      rw [hassoc] at hsei hpre hafter hP
      obtain ⟨v', os, g1, g2⟩ := ih (a ++ [.sei b]) v1 hP h2 (fun d ts hd => hord d ts (List.mem_cons_of_mem _ hd)) hsei hpre hafter
      refine ⟨v', _, authRun_ok h1 g1, ?_⟩
      rw [e1, e2] at g2
      exact ⟨rfl, ⟨gop, r, h3, rfl, h4, h5, h6, h7⟩, g2⟩

end Validator
end SV
