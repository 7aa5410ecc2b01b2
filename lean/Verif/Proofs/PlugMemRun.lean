import Verif.Proofs.PlugMem
namespace SV.PlugMem
open SV.Keys (Blocks KeyEnv SignData privateKeyMalloc Owns)
open SV.Spec (slotsL sdL dataL sessL refs Fails failures MayStep Obeys Idle)

/-- The key can be used for signing. -/
def usableB (env : KeyEnv) (pem : Bytes) : Bool :=
  match env.read pem with | some key => key.size != 0 && key.usable | none => false

theorem load_spec (env : KeyEnv) {b : Blocks} {l k : List Nat} (blk : Nat) (pem : Bytes) (h : Owns b (blk :: l) k) :
    ∃ b' d rc, privateKeyMalloc env b {} pem = .ok (b', d, rc) ∧
      rc.isNone = (!pem.isEmpty && usableB env pem) ∧ Owns b' (sdL (some ⟨blk, d, none⟩) ++ l) k := by
  obtain ⟨b', d, rc, k', e, -, hk, hc⟩ := Keys.privateKeyMalloc_spec env (b := b) (d := {}) (l := blk :: l) (k := k) pem
    (by simpa [Keys.sigL] using h)
  cases hk rfl
  refine ⟨b', d, rc, e, ?_⟩
  rcases hc with ⟨n, c, key, rfl, hr, hs, hu, hp, rfl, ho⟩ | ⟨⟨e', rfl⟩, rfl, rfl, rfl, -⟩ | ⟨rfl, rfl, ho, hn⟩
  · refine ⟨by cases pem <;> simp_all [usableB], owns_of_count ho fun a => ?_⟩
    simp only [sdL, List.count_append, List.count_cons, List.count_nil, Option.toList, Option.map]
    omega
  · exact ⟨by simp, by simpa [sdL] using h⟩
  · refine ⟨?_, by simpa [sdL] using ho⟩
    cases hr : env.read pem with
    | none => simp [usableB, hr]
    | some key =>
      simp only [usableB, hr, Option.isNone]
      by_cases h1 : key.size = 0
      · simp [h1]
      · cases hu : key.usable with
        | false => simp
        | true => exact absurd ⟨key, hr, h1, hu⟩ hn

/-- What holds between the steps; the blocks `lost` can no longer be reached. -/
structure Inv (s : Plugin) (lost : List Nat) : Prop where
  wf : Wf s.data
  sess : ∀ h b t, some (Sess.own h b t) ∈ s.sess → Wf t
  down : s.up = false → s.head = none ∧ s.nodes = [] ∧ dataL s.data = []
  own : Owns s.b (refs s) lost

theorem wf_zero : Wf Data.zero := ⟨by simp [Data.zero], by simp [Data.zero], by simp [Data.zero]⟩

theorem dataL_zero : dataL Data.zero = [] := by simp [dataL, Data.zero, sdL, slotsL_replicate]

theorem inv_zero : Inv .zero [] := by
  refine ⟨wf_zero, by simp [Plugin.zero], fun _ => ⟨rfl, rfl, dataL_zero⟩, ?_⟩
  have : refs .zero = [] := by simp [refs, Plugin.zero, dataL_zero]
  rw [this]
  exact ⟨by simp, by simp [Plugin.zero], by simp [Plugin.zero]⟩

theorem sd_none_of_dataL {t : Data} (h : dataL t = []) : t.sd = none ∧ slotsL t.out = [] ∧ slotsL t.inn = [] := by
  simp only [dataL, List.append_eq_nil_iff] at h
  refine ⟨?_, h.2.1, h.2.2⟩
  cases hs : t.sd with
  | none => rfl
  | some x => rw [hs] at h; simp [sdL] at h

theorem init_inv (env : KeyEnv) {s : Plugin} {lost : List Nat} (i : Inv s lost) (pem : Bytes) (a1 a2 thr : Bool) :
    ∃ s', init env s pem a1 a2 thr = .ok s' ∧ Inv s' lost := by
  unfold init
  by_cases hc : (s.up || s.head.isSome || s.data.sd.isSome) = true
  · exact ⟨s, by rw [if_pos hc], i⟩
  rw [if_neg hc]
  have hu : s.up = false := by
    cases h : s.up with
    | false => rfl
    | true => simp [h] at hc
  obtain ⟨hh, hn, hd⟩ := i.down hu
  obtain ⟨hs, ho, hi⟩ := sd_none_of_dataL hd
  have hrun : s.data.running = false := by
    cases h : s.data.running with
    | false => rfl
    | true => exact absurd hs (i.wf.sd h)
  have same : ({ s.data with sd := none } : Data) = s.data := by rw [← hs]
  cases a1 with
  | false =>
    refine ⟨s, ?_, i⟩
    simp only [hs, signDataFree]
    show Out.ok _ = _
    simp only [same]
  | true =>
    have h0 := i.own.alloc
    have undo : ∀ (b : Blocks) (sd : Option SData), Owns b (sdL sd ++ (s.b.next :: refs s)) lost →
        ∃ s', (do
          let b ← signDataFree b sd
          let b ← b.free (some s.b.next)
          .ok { s with b, data := { s.data with sd := none } } : Out Plugin) = .ok s' ∧ Inv s' lost := by
      intro b sd h
      obtain ⟨b1, e1, h⟩ := signDataFree_spec sd h
      obtain ⟨b2, e2, h⟩ := Owns.free (l := refs s) (some s.b.next) h
      refine ⟨{ s with b := b2 }, by simp [e1, e2, same], i.wf, i.sess, i.down, ?_⟩
      exact h
    have fin : ∀ (b : Blocks) (sd : Option SData), Owns b (sdL sd ++ (s.b.next :: refs s)) lost →
        ∃ s', (if sd.isNone || !thr then (do
            let b ← signDataFree b sd
            let b ← b.free (some s.b.next)
            .ok { s with b, data := { s.data with sd := none } } : Out Plugin)
          else .ok { s with b, head := some s.b.next, up := true, data := { s.data with sd, running := true } }) = .ok s' ∧
          Inv s' lost := by
      intro b sd h
      by_cases hx : (sd.isNone || !thr) = true
      · rw [if_pos hx]; exact undo b sd h
      · rw [if_neg hx]
        refine ⟨_, rfl, ⟨i.wf.inn, i.wf.out, fun _ hsd => ?_⟩, i.sess, fun h => (by cases h), ?_⟩
        · simp only at hsd
          rw [hsd] at hx; simp at hx
        · refine owns_of_count h fun a => ?_
          simp only [refs, dataL, hs, ho, hi, hh, sdL, List.count_append, List.count_cons, List.count_nil, Option.toList]
          omega
    simp only [Bool.not_true, Bool.false_eq_true, if_false, signDataCreate]
    cases a2 with
    | false => exact fin _ none (by simpa [sdL] using h0)
    | true =>
      obtain ⟨b', d, rc, e, -, h1⟩ := load_spec env s.b.alloc.next pem h0.alloc
      simp only [Bool.not_true, Bool.false_eq_true, if_false]
      cases rc with
      | none =>
        obtain ⟨s', e', h2⟩ := fin b' _ h1
        refine ⟨s', ?_, h2⟩
        rw [← e']; simp [e]
      | some r =>
        obtain ⟨b2, e2, h2⟩ := signDataFree_spec _ h1
        obtain ⟨s', e', h3⟩ := fin b2 none (by simpa [sdL] using h2)
        refine ⟨s', ?_, h3⟩
        rw [← e']; simp [e, e2]

theorem freeNodes_spec : ∀ (ns : List (Nat × Nat)) {b : Blocks} {l k : List Nat},
    Owns b (ns.map Prod.snd ++ l) k → ∃ b', freeNodes b ns = .ok b' ∧ Owns b' l k
  | [], b, l, k, h => ⟨b, rfl, h⟩
  | n :: ns, b, l, k, h => by
    obtain ⟨b1, e1, h⟩ := Owns.free (l := ns.map Prod.snd ++ l) (some n.2) h
    obtain ⟨b2, e2, h⟩ := freeNodes_spec ns h
    exact ⟨b2, by simp [freeNodes, e1, e2], h⟩

theorem exit_inv {s : Plugin} {lost : List Nat} (i : Inv s lost) : ∃ s', exit s = .ok s' ∧ Inv s' lost := by
  obtain ⟨b1, e1, h1⟩ := Owns.free (b := s.b) (l := s.nodes.map Prod.snd ++ (dataL s.data ++ s.sess.flatMap sessL)) (k := lost) s.head
    (owns_of_count i.own fun a => by simp only [refs, List.count_append]; omega)
  obtain ⟨b2, e2, h2⟩ := freeNodes_spec _ h1
  obtain ⟨b3, t, e3, l1, l2, hs, hr, hd, h3⟩ := freePlugin_spec (t := { s.data with running := false })
    (by rw [i.wf.out, i.wf.inn]) h2
  refine ⟨{ s with b := b3, data := t, head := none, nodes := [], up := false }, by simp [exit, e1, e2, e3],
    ⟨l1.trans i.wf.inn, l2.trans i.wf.out, fun h => by rw [hr] at h; cases h⟩, i.sess, fun _ => ⟨rfl, rfl, hd⟩, ?_⟩
  simpa [refs, hd] using h3

theorem localSetup_spec (env : KeyEnv) {b : Blocks} {l k : List Nat} (pem : Bytes) (a1 a2 thr : Bool)
    (hp : pem ≠ []) (h : Owns b l k) :
    ∃ b' r, localSetup env b pem a1 a2 thr = .ok (b', r) ∧
      match r with
      | none => ∃ k', k'.length = k.length + (if a1 && !(a2 && thr && usableB env pem) then 1 else 0) ∧ Owns b' l k'
      | some (blk, t) => (a1 && !(a2 && thr && usableB env pem)) = false ∧ Wf t ∧ Owns b' (blk :: (dataL t ++ l)) k := by
  unfold localSetup
  cases a1 with
  | false => exact ⟨b, none, rfl, k, by simp, h⟩
  | true =>
    have h0 := h.alloc
    have hz : (Data.zero.out).length = (Data.zero.inn).length := by simp [Data.zero]
    simp only [Bool.not_true, Bool.false_eq_true, if_false]
    cases a2 with
    | false =>
      obtain ⟨b', t', e, -, -, -, -, -, h1⟩ := freePlugin_spec (t := .zero) (b := b.alloc) (l := b.next :: l) (k := k) hz
        (by rw [dataL_zero]; exact h0)
      refine ⟨b', none, by simp [e], b.next :: k, by simp, owns_of_count h1 fun a => ?_⟩
      simp only [List.count_cons]; omega
    | true =>
      obtain ⟨b1, d, rc, e, hrc, h1⟩ := load_spec env b.alloc.next pem h0.alloc
      have hu : rc.isNone = usableB env pem := by
        rw [hrc]; cases pem with | nil => exact absurd rfl hp | cons => simp
      have hd : dataL { Data.zero with sd := some ⟨b.alloc.next, d, none⟩ } = sdL (some ⟨b.alloc.next, d, none⟩) := by
        simp [dataL, Data.zero, slotsL_replicate]
      simp only [Bool.not_true, Bool.false_eq_true, if_false]
      by_cases hx : (rc.isSome || !thr) = true
      · obtain ⟨b2, t', e2, -, -, -, -, -, h2⟩ := freePlugin_spec
          (t := { Data.zero with sd := some ⟨b.alloc.next, d, none⟩ }) (b := b1) (l := b.next :: l) (k := k) hz
          (by rw [hd]; exact h1)
        refine ⟨b2, none, by simp only [e, Out.bind_ok, hx, if_true, e2], b.next :: k, ?_, owns_of_count h2 fun a => ?_⟩
        · rw [← hu]
          cases rc <;> cases thr <;> simp_all
        · simp only [List.count_cons]; omega
      · refine ⟨b1, some (b.next, { Data.zero with sd := some ⟨b.alloc.next, d, none⟩, running := true }),
          by simp only [e, Out.bind_ok, hx, if_false, Bool.false_eq_true], ?_, ⟨wf_zero.inn, wf_zero.out, fun _ => by simp⟩, ?_⟩
        · rw [← hu]
          cases rc <;> cases thr <;> simp_all
        · refine owns_of_count h1 fun a => ?_
          simp only [dataL, Data.zero, slotsL_replicate, List.count_append, List.count_cons, List.count_nil]
          omega

theorem refs_none (s : Plugin) : refs { s with sess := s.sess ++ [none] } = refs s := by
  simp [refs, sessL]

theorem setup_inv (env : KeyEnv) {s : Plugin} {lost : List Nat} (i : Inv s lost) (pem : Bytes)
    (a1 a2 a3 thr ready : Bool) :
    ∃ s' lost', setup env s pem a1 a2 a3 thr ready = .ok s' ∧
      lost'.length = lost.length + (if Fails env s (.setup pem a1 a2 a3 thr ready) then 1 else 0) ∧ Inv s' lost' := by
  have none' : ∀ (b : Blocks) (lost' : List Nat), Owns b (refs s) lost' →
      Inv { s with b, sess := s.sess ++ [none] } lost' := by
    intro b lost' h
    refine ⟨i.wf, fun h b t hm => i.sess h b t ?_, i.down, ?_⟩
    · simpa using hm
    · have := refs_none { s with b }
      simp only at this ⊢
      rw [this]; exact h
  unfold setup
  cases a1 with
  | false => exact ⟨_, lost, rfl, by simp [Fails], none' s.b lost i.own⟩
  | true =>
    have h0 := i.own.alloc
    simp only [Bool.not_true, Bool.false_eq_true, if_false]
    rcases Bool.eq_false_or_eq_true s.up with hu | hu
    · have hf : ∀ a2, Fails env s (.setup pem true a2 a3 thr ready) = false := by simp [Fails, hu]
      rw [if_pos hu, hf]
      cases a2 with
      | false =>
        obtain ⟨b1, e1, h1⟩ := Owns.free (l := refs s) (some s.b.next) h0
        exact ⟨{ s with b := b1, sess := s.sess ++ [none] }, lost, by simp [e1], rfl, none' b1 lost h1⟩
      | true =>
        by_cases hx : (!ready || !a3) = true
        · obtain ⟨b1, e1, h1⟩ := Owns.free (l := s.b.next :: refs s) (some s.b.alloc.next) h0.alloc
          obtain ⟨b2, e2, h2⟩ := Owns.free (l := refs s) (some s.b.next) h1
          exact ⟨{ s with b := b2, sess := s.sess ++ [none] }, lost,
            by simp only [Bool.not_true, Bool.false_eq_true, if_false, hx, if_true, e1, e2, Out.bind_ok], rfl, none' b2 lost h2⟩
        · refine ⟨{ s with b := s.b.alloc.alloc.alloc, nodes := s.nodes ++ [(s.sess.length, s.b.alloc.alloc.next)]
                           sess := s.sess ++ [some (.central s.b.next s.b.alloc.next)] }, lost,
            by simp only [Bool.not_true, Bool.false_eq_true, if_false, hx], rfl, i.wf, ?_, fun h => ?_, ?_⟩
          · intro h b t hm
            exact i.sess h b t (by simpa using hm)
          · simp only [hu] at h; cases h
          · refine owns_of_count h0.alloc.alloc fun a => ?_
            simp only [refs, sessL, List.map_append, List.flatMap_append, List.flatMap_cons, List.flatMap_nil, List.map_cons,
              List.map_nil, List.count_append, List.count_cons, List.count_nil]
            omega
    · rw [if_neg (by simp [hu])]
      by_cases hp : pem = []
      · obtain ⟨b1, e1, h1⟩ := Owns.free (l := refs s) (some s.b.next) h0
        exact ⟨{ s with b := b1, sess := s.sess ++ [none] }, lost, by simp only [hp, if_true, e1, Out.bind_ok],
          by simp [Fails, hp], none' b1 lost h1⟩
      · rw [if_neg hp]
        have hf : Fails env s (.setup pem true a2 a3 thr ready) = (a2 && !(a3 && thr && usableB env pem)) := by
          cases pem with
          | nil => exact absurd rfl hp
          | cons x xs => simp only [Fails, hu, usableB]; simp; rfl
        rw [hf]
        obtain ⟨b1, r, e1, h1⟩ := localSetup_spec env pem a2 a3 thr hp h0
        cases r with
        | none =>
          obtain ⟨k', hk, h1⟩ := h1
          obtain ⟨b2, e2, h2⟩ := Owns.free (l := refs s) (some s.b.next) h1
          exact ⟨{ s with b := b2, sess := s.sess ++ [none] }, k', by simp only [e1, e2, Out.bind_ok], hk, none' b2 k' h2⟩
        | some r =>
          obtain ⟨blk, t⟩ := r
          obtain ⟨hk, w, h1⟩ := h1
          refine ⟨{ s with b := b1, sess := s.sess ++ [some (.own s.b.next blk t)] }, lost,
            by simp only [e1, Out.bind_ok], by rw [hk]; rfl, i.wf, ?_, fun h => ?_, ?_⟩
          · intro h b t' hm
            simp only [List.mem_append, List.mem_singleton, Option.some.injEq, Sess.own.injEq] at hm
            rcases hm with hm | ⟨-, -, rfl⟩
            · exact i.sess h b t' hm
            · exact w
          · exact i.down hu
          · refine owns_of_count h1 fun a => ?_
            simp only [refs, sessL, List.flatMap_append, List.flatMap_cons, List.flatMap_nil,
              List.count_append, List.count_cons, List.count_nil]
            omega

theorem count_sess (a : Nat) : ∀ (s : List (Option Sess)) (k : Nat) (x y : Option Sess), s[k]? = some x →
    List.count a ((s.set k y).flatMap sessL) + List.count a (sessL x) =
      List.count a (s.flatMap sessL) + List.count a (sessL y)
  | [], _, _, _, h => by simp at h
  | z :: s, 0, x, y, h => by
    simp only [List.getElem?_cons_zero, Option.some.injEq] at h
    subst h
    simp only [List.set_cons_zero, List.flatMap_cons, List.count_append]
    omega
  | z :: s, k + 1, x, y, h => by
    have := count_sess a s k x y (by simpa using h)
    simp only [List.set_cons_succ, List.flatMap_cons, List.count_append]
    omega

theorem count_nodes (a k : Nat) : ∀ (ns : List (Nat × Nat)),
    List.count a (ns.map Prod.snd) =
      List.count a (((ns.find? (·.1 == k)).map Prod.snd).toList) + List.count a ((ns.eraseP (·.1 == k)).map Prod.snd)
  | [] => by simp
  | n :: ns => by
    have := count_nodes a k ns
    by_cases h : (n.1 == k) = true
    · rw [List.find?_cons_of_pos (p := fun x : Nat × Nat => x.1 == k) h, List.eraseP_cons_of_pos (p := fun x : Nat × Nat => x.1 == k) h]
      simp only [List.map_cons, List.count_cons, Option.map, Option.toList, List.count_nil]
      omega
    · rw [List.find?_cons_of_neg (p := fun x : Nat × Nat => x.1 == k) h, List.eraseP_cons_of_neg (p := fun x : Nat × Nat => x.1 == k) h]
      simp only [List.map_cons, List.count_cons]
      omega

theorem teardown_inv {s : Plugin} {lost : List Nat} (i : Inv s lost) (k : Nat) (hk : ∃ x, s.sess[k]? = some (some x)) :
    ∃ s', teardown s k = .ok s' ∧ Inv s' lost := by
  obtain ⟨x, hx⟩ := hk
  have hs : ∀ h b t, some (Sess.own h b t) ∈ s.sess.set k none → Wf t := by
    intro h b t hm
    rcases List.mem_or_eq_of_mem_set hm with hm | hm
    · exact i.sess h b t hm
    · cases hm
  unfold teardown
  rw [hx]
  cases x with
  | own hd blk t =>
    have w := i.sess hd blk t (List.mem_of_getElem? hx)
    obtain ⟨b1, t', e1, -, -, -, -, -, h1⟩ := freePlugin_spec (b := s.b) (t := { t with running := false })
      (l := blk :: hd :: refs { s with sess := s.sess.set k none }) (k := lost) (by rw [w.out, w.inn]) (by
        refine owns_of_count i.own fun a => ?_
        have := count_sess a s.sess k _ none hx
        simp only [refs, sessL, dataL, List.count_append, List.count_cons, List.count_nil] at this ⊢
        omega)
    obtain ⟨b2, e2, h2⟩ := Owns.free (l := hd :: refs { s with sess := s.sess.set k none }) (some blk) h1
    obtain ⟨b3, e3, h3⟩ := Owns.free (l := refs { s with sess := s.sess.set k none }) (some hd) h2
    exact ⟨{ s with b := b3, sess := s.sess.set k none }, by simp only [e1, e2, e3, Out.bind_ok], i.wf, hs, i.down, h3⟩
  | central hd blk =>
    have h0 : Owns s.b (((s.nodes.find? (·.1 == k)).map Prod.snd).toList ++ (blk :: hd :: refs { s with
        nodes := s.nodes.eraseP (·.1 == k), sess := s.sess.set k none })) lost := by
      refine owns_of_count i.own fun a => ?_
      have := count_sess a s.sess k _ none hx
      have := count_nodes a k s.nodes
      simp only [refs, sessL, List.count_append, List.count_cons, List.count_nil] at *
      omega
    obtain ⟨b1, e1, h1⟩ := Owns.free _ h0
    obtain ⟨b2, e2, h2⟩ := Owns.free (l := hd :: refs { s with
        nodes := s.nodes.eraseP (·.1 == k), sess := s.sess.set k none }) (some blk) h1
    obtain ⟨b3, e3, h3⟩ := Owns.free (l := refs { s with
        nodes := s.nodes.eraseP (·.1 == k), sess := s.sess.set k none }) (some hd) h2
    refine ⟨{ s with b := b3, nodes := s.nodes.eraseP (·.1 == k), sess := s.sess.set k none },
      by simp only [e1, e2, e3, Out.bind_ok], i.wf, hs, fun h => ?_, h3⟩
    obtain ⟨h1, h2, h3⟩ := i.down h
    exact ⟨h1, by simp [h2], h3⟩

theorem op_down {b b' : Blocks} {t t' : Data} (o : Op) (w : Wf t) (h : dataL t = [])
    (e : op b t true o = .ok (b', t')) : dataL t' = [] := by
  obtain ⟨hs, ho, hi⟩ := sd_none_of_dataL h
  have hr : t.running = false := by
    cases h : t.running with
    | false => rfl
    | true => exact absurd hs (w.sd h)
  have nil : ∀ a i j, slotsL a = [] → slotsL (moveSlot a i j) = [] := by
    intro a i j ha
    refine List.eq_nil_iff_forall_not_mem.2 fun x hx => ?_
    have := count_moveSlot x a i j
    rw [ha, List.count_nil] at this
    exact List.count_eq_zero.1 this hx
  cases o with
  | sign idx a1 a2 =>
    simp only [op, signHash, hr] at e
    split at e <;> (simp at e; rw [← e.2]; exact h)
  | put idx a =>
    simp only [op, put, hr] at e
    simp at e; rw [← e.2]; exact h
  | moveIn i j =>
    simp only [op, Out.ok.injEq, Prod.mk.injEq] at e
    rw [← e.2]; simp [dataL, hs, sdL, ho, nil _ i j hi]
  | moveOut i j =>
    simp only [op, Out.ok.injEq, Prod.mk.injEq] at e
    rw [← e.2]; simp [dataL, hs, sdL, hi, nil _ i j ho]

theorem step_inv (env : KeyEnv) {s : Plugin} {lost : List Nat} (i : Inv s lost) (x : Step) (hm : MayStep s x) :
    ∃ s' lost', step env s x = .ok s' ∧ lost'.length = lost.length + (if Fails env s x then 1 else 0) ∧ Inv s' lost' := by
  cases x with
  | init pem a1 a2 thr =>
    obtain ⟨s', e, h⟩ := init_inv env i pem a1 a2 thr
    exact ⟨s', lost, e, by simp [Fails], h⟩
  | exit =>
    obtain ⟨s', e, h⟩ := exit_inv i
    exact ⟨s', lost, e, by simp [Fails], h⟩
  | setup pem a1 a2 a3 thr ready => exact setup_inv env i pem a1 a2 a3 thr ready
  | teardown k =>
    obtain ⟨s', e, h⟩ := teardown_inv i k hm
    exact ⟨s', lost, e, by simp [Fails], h⟩
  | data k o =>
    cases k with
    | none =>
      obtain ⟨b', t', e, w, -, h⟩ := op_spec (b := s.b) (t := s.data)
        (l := s.head.toList ++ (s.nodes.map Prod.snd ++ s.sess.flatMap sessL)) (k := lost) true o i.wf i.own
      refine ⟨{ s with b := b', data := t' }, lost, by simp only [step, e, Out.bind_ok], by simp [Fails], w, i.sess, fun hu => ?_, h⟩
      obtain ⟨h1, h2, h3⟩ := i.down hu
      exact ⟨h1, h2, op_down o i.wf h3 e⟩
    | some k =>
      simp only [step]
      cases hx : s.sess[k]? with
      | none => exact ⟨s, lost, rfl, by simp [Fails], i⟩
      | some y =>
        match y, hx with
        | none, hx => exact ⟨s, lost, rfl, by simp [Fails], i⟩
        | some (.central _ _), hx => exact ⟨s, lost, rfl, by simp [Fails], i⟩
        | some (.own hd blk t), hx =>
          have w := i.sess hd blk t (List.mem_of_getElem? hx)
          obtain ⟨b', t', e, w', -, h⟩ := op_spec (b := s.b) (t := t)
            (l := hd :: blk :: refs { s with sess := s.sess.set k none }) (k := lost) false o w (by
              refine owns_of_count i.own fun a => ?_
              have := count_sess a s.sess k _ none hx
              simp only [refs, sessL, List.count_append, List.count_cons, List.count_nil] at this ⊢
              omega)
          refine ⟨{ s with b := b', sess := s.sess.set k (some (.own hd blk t')) }, lost,
            by simp only [e, Out.bind_ok], by simp [Fails], i.wf, ?_, i.down, ?_⟩
          · intro h b t2 hm
            rcases List.mem_or_eq_of_mem_set hm with hm | hm
            · exact i.sess h b t2 hm
            · cases hm; exact w'
          · refine owns_of_count h fun a => ?_
            have h1 := count_sess a s.sess k _ none hx
            have h2 := count_sess a s.sess k _ (some (.own hd blk t')) hx
            simp only [refs, sessL, List.count_append, List.count_cons, List.count_nil] at h1 h2 ⊢
            omega

theorem run_inv (env : KeyEnv) : ∀ (xs : List Step) {s : Plugin} {lost : List Nat}, Inv s lost → Obeys env s xs →
    ∃ s' lost', run env s xs = .ok s' ∧ lost'.length = lost.length + failures env s xs ∧ Inv s' lost'
  | [], s, lost, i, _ => ⟨s, lost, rfl, rfl, i⟩
  | x :: xs, s, lost, i, h => by
    obtain ⟨s1, l1, e1, hl, i1⟩ := step_inv env i x h.1
    obtain ⟨s2, l2, e2, hl2, i2⟩ := run_inv env xs i1 (h.2 _ e1)
    refine ⟨s2, l2, by simp [run, e1, e2], ?_, i2⟩
    simp only [failures, e1]
    omega

end SV.PlugMem
