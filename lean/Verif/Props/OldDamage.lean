import Verif.Props.OldFlow
/-! C77: a stream of the older format is altered.  Which GOPs are said to be OK is told in terms of what was sent and what is received. -/
namespace SV
open Spec

theorem fold_concat (H : Bytes → Bytes) (g : Bytes) (l : List Bytes) (h : Bytes) :
    (l ++ [h]).foldl (fun g h => H (g ++ h)) g = H (l.foldl (fun g h => H (g ++ h)) g ++ h) := by
  rw [List.foldl_append]; rfl

theorem nil_or_last {α : Type} (l : List α) : l = [] ∨ ∃ a b, l = a ++ [b] := by
  rcases List.eq_nil_or_concat l with h | ⟨a, b, h⟩
  · exact .inl h
  · exact .inr ⟨a, b, by rw [h, List.concat_eq_append]⟩

theorem chainInputs_concat (H : Bytes → Bytes) (l : List Bytes) (h : Bytes) : ∀ g,
    chainInputs H g (l ++ [h]) = chainInputs H g l ++ [l.foldl (fun g h => H (g ++ h)) g ++ h] := by
  induction l with
  | nil => intro g; rfl
  | cons x l ih => intro g; rw [List.cons_append, chainInputs, ih, chainInputs, List.foldl_cons, List.cons_append]

theorem fold_length {H : Bytes → Bytes} (len : ∀ b, (H b).length = 32) (l : List Bytes) : (l.foldl (fun g h => H (g ++ h)) (H [1])).length = 32 := by
  rcases nil_or_last l with rfl | ⟨a, b, rfl⟩
  · exact len _
  · rw [fold_concat]; exact len _

theorem chain_inj {H : Bytes → Bytes} (len : ∀ b, (H b).length = 32) : ∀ (n : Nat) {l m : List Bytes}, l.length = n → (∀ h ∈ l, h.length = 32) → (∀ h ∈ m, h.length = 32) →
    NoneLike H ([1] :: chainInputs H (H [1]) l) ([1] :: chainInputs H (H [1]) m) →
    l.foldl (fun g h => H (g ++ h)) (H [1]) = m.foldl (fun g h => H (g ++ h)) (H [1]) → l = m := by
  intro n
  induction n with
  | zero =>
    intro l m hl _ hm hc he
    rw [List.length_eq_zero_iff.1 hl] at hc he ⊢
    rcases nil_or_last m with rfl | ⟨a, b, rfl⟩
    · rfl
    · rw [fold_concat] at he
      have := hc [1] List.mem_cons_self _ (by rw [chainInputs_concat]; exact List.mem_cons_of_mem _ (List.mem_append_right _ List.mem_cons_self)) he
      have h1 := congrArg List.length this
      rw [List.length_append, fold_length len] at h1
      simp at h1
      omega
  | succ n ih =>
    intro l m hl hll hm hc he
    rcases nil_or_last l with rfl | ⟨a, b, rfl⟩
    · cases hl
    · rw [fold_concat] at he
      rw [chainInputs_concat] at hc
      rcases nil_or_last m with rfl | ⟨a', b', rfl⟩
      · have := hc _ (List.mem_cons_of_mem _ (List.mem_append_right _ List.mem_cons_self)) [1] List.mem_cons_self he
        have h1 := congrArg List.length this
        rw [List.length_append, fold_length len] at h1
        simp at h1
        omega
      · rw [fold_concat] at he
        rw [chainInputs_concat] at hc
        have := hc _ (List.mem_cons_of_mem _ (List.mem_append_right _ List.mem_cons_self)) _ (List.mem_cons_of_mem _ (List.mem_append_right _ List.mem_cons_self)) he
        have h2 := List.append_inj this (by rw [fold_length len, fold_length len])
        have := ih (l := a) (m := a') (by simpa using hl) (fun h hh => hll h (List.mem_append_left _ hh)) (fun h hh => hm h (List.mem_append_left _ hh))
          (fun x hx y hy => hc x (by
            rcases List.mem_cons.1 hx with rfl | hx
            · exact List.mem_cons_self
            · exact List.mem_cons_of_mem _ (List.mem_append_left _ hx)) y (by
            rcases List.mem_cons.1 hy with rfl | hy
            · exact List.mem_cons_self
            · exact List.mem_cons_of_mem _ (List.mem_append_left _ hy))) h2.1
        rw [this, h2.2]

theorem oldHashes_len {H : Bytes → Bytes} (len : ∀ b, (H b).length = 32) (l : List Bytes) : ∀ h ∈ oldHashes H l, h.length = 32 := by
  intro h hh
  cases l with
  | nil => cases hh
  | cons i r =>
    rcases List.mem_cons.1 hh with rfl | hh
    · exact len _
    · obtain ⟨n, -, rfl⟩ := List.mem_map.1 hh
      exact len _

theorem map_inj_on {α β : Type} {f g : α → β} {l m : List α} (hinj : ∀ x ∈ l, ∀ y ∈ m, f x = g y → x = y) (h : l.map f = m.map g) : l = m := by
  induction l generalizing m with
  | nil => cases m with
    | nil => rfl
    | cons y m => cases h
  | cons x l ih =>
    cases m with
    | nil => cases h
    | cons y m =>
      rw [List.map_cons, List.map_cons] at h
      injection h with h1 h2
      rw [hinj x List.mem_cons_self y List.mem_cons_self h1, ih (fun x hx y hy => hinj x (List.mem_cons_of_mem _ hx) y (List.mem_cons_of_mem _ hy)) h2]

theorem oldHashes_inj {H : Bytes → Bytes} (len : ∀ b, (H b).length = 32) {l m : List Bytes} {d e : Bytes} (hc : NoneLike H (oldInputs H l d) (oldInputs H m e)) (h : oldHashes H l = oldHashes H m) :
    l = m := by
  have hm : ∀ {l : List Bytes} {d x : Bytes}, x ∈ l → x ∈ oldInputs H l d := fun hx => List.mem_append_left _ (List.mem_append_left _ (List.mem_cons_of_mem _ hx))
  have hp : ∀ {i : Bytes} {r : List Bytes} {d x : Bytes}, x ∈ r → H i ++ H x ∈ oldInputs H (i :: r) d := fun hx =>
    List.mem_append_left _ (List.mem_append_right _ (List.mem_map_of_mem (f := fun n => H _ ++ H n) hx))
  cases l with
  | nil => cases m with
    | nil => rfl
    | cons y m => cases h
  | cons x l =>
    cases m with
    | nil => cases h
    | cons y m =>
      unfold oldHashes at h
      injection h with h1 h2
      rw [hc x (hm List.mem_cons_self) y (hm List.mem_cons_self) h1]
      refine congrArg _ (map_inj_on (fun a ha b hb he => ?_) h2)
      have := hc _ (hp ha) _ (hp hb) he
      exact hc a (hm (List.mem_cons_of_mem _ ha)) b (hm (List.mem_cons_of_mem _ hb)) (List.append_inj this (by rw [len, len])).2

/-- Other NAL units have another hash. -/
theorem C77_old_gop_hash {H : Bytes → Bytes} (len : ∀ b, (H b).length = 32) {l m : List Bytes} {d e : Bytes} (hc : NoneLike H (oldInputs H l d) (oldInputs H m e))
    (h : oldGopHash H l d = oldGopHash H m e) : l = m ∧ d = e := by
  unfold oldGopHash at h
  have hl : ∀ {l : List Bytes} {d : Bytes}, ∀ h ∈ oldHashes H l ++ [H d], h.length = 32 := by
    intro l d h hh
    rcases List.mem_append.1 hh with hh | hh
    · exact oldHashes_len len l h hh
    · rw [List.mem_singleton.1 hh]; exact len _
  have h1 := chain_inj len _ rfl hl hl (fun x hx y hy => hc x (List.mem_append_right _ hx) y (List.mem_append_right _ hy)) h
  have h2 := List.append_inj' h1 rfl
  refine ⟨oldHashes_inj len hc h2.1, ?_⟩
  have h3 := h2.2
  injection h3 with h3
  exact hc d (List.mem_append_left _ (List.mem_append_left _ List.mem_cons_self)) e (List.mem_append_left _ (List.mem_append_left _ List.mem_cons_self)) h3

theorem received_of_altered {env : AuthEnv} {key : Bytes} {c : Codec} {max : Nat} (len : ∀ b, (env.H env.oid b).length = 32) {l : List (OldGop × OldGop)} :
    ∀ {ps pr : List Bytes} {n : Option UInt32}, OldSigned env key c max ps n (l.map Prod.fst) → OldAltered env key c ps pr l → OldReceived env key c max pr n (oldFlags c ps pr l) := by
  induction l with
  | nil => intro _ _ _ _ _; trivial
  | cons p l ih =>
    obtain ⟨s, r⟩ := p
    intro ps pr n hs ha
    obtain ⟨h1, h2, h3, h4, h5⟩ := hs
    obtain ⟨a1, a2, a3, a4⟩ := ha
    dsimp only at h1 h2 h3 h4 h5
    refine ⟨a1, a2 ▸ h2, ?_, a2 ▸ h4, ?_⟩
    · by_cases he : pr ++ (r.pictures c).take 1 = ps ++ (s.pictures c).take 1
      · rw [if_pos (decide_eq_true he), he, a2]
        exact h3
      · obtain ⟨b1, b2, b3⟩ := a3 he
        rw [if_neg (by rw [decide_eq_true_eq]; exact he), a2]
        refine ⟨b1, b3 fun hc => he (C77_old_gop_hash len b2 hc.symm).1.symm⟩
    · have := ih h5 a4
      rwa [a2]

/-- **C77.** A stream of the older format is signed and then NAL units are changed, added or removed. Each report tells whether the NAL units concerned have been altered:
if a NAL unit of a GOP or the first one of the next GOP has been, the report for this GOP is not OK and none of the NAL units is; the report for the next GOP is not OK either, as
its first NAL unit has already been found not OK; the GOPs after that one are OK again.  See `OldAltered` for what may happen to the stream, and `C77_old_damage` for streams with altered
SEIs. -/
theorem C77_old_altered {env : AuthEnv} {key : Bytes} {c : Codec} {max : Nat} (len : ∀ b, (env.H env.oid b).length = 32) (rounds : 2 ≤ env.rounds) (accepted : env.crypto.keyOk key = true)
    (known : env.crypto.oidHashSize env.oid = some 32) {lead : List Bytes} {s r : OldGop} {l : List (OldGop × OldGop)} (hlead : ∀ d ∈ lead, Ordinary c d ∧ picture c d = none)
    (first : 2 ∈ s.sei.tags) (signed : OldSigned env key c max [] none (s :: l.map Prod.fst)) (altered : OldAltered env key c [] [] ((s, r) :: l))
    (start : (r.pictures c).take 1 = (s.pictures c).take 1) :
    ∃ v os ps, Session.run env (newSession env c) ((lead ++ (r :: l.map Prod.snd).flatMap fun g => g.units c).map .nalu) = .ok (v, os ++ ps) ∧
      os.length = lead.length ∧ (∀ o ∈ os, o.rc = none ∧ ∀ r, o.report = some r → r.latest.auth = .notSigned ∧ r.acc.auth = .notSigned) ∧
      AsClaimed (oldClaims c 0 false true (oldFlags c [] [] ((s, r) :: l))) ps := by
  have hr := received_of_altered (l := (s, r) :: l) len signed altered
  have hf : oldFlags c [] [] ((s, r) :: l) = (r, true) :: oldFlags c (s.pictures c) (r.pictures c) l := by
    rw [oldFlags, List.nil_append, List.nil_append, decide_eq_true start]
  have hu : ∀ (l : List (OldGop × OldGop)) (ps pr : List Bytes), ((oldFlags c ps pr l).flatMap fun g => g.1.units c) = (l.map Prod.snd).flatMap fun g => g.units c := by
    intro l
    induction l with
    | nil => intro _ _; rfl
    | cons p l ih => intro ps pr; rw [oldFlags, List.flatMap_cons, ih, List.map_cons, List.flatMap_cons]
  rw [hf] at hr
  obtain ⟨v, os, ps, h1, h2, h3, h4⟩ := C77_old_damage len rounds accepted known hlead (by rw [altered.2.1]; exact first) hr
  rw [← hf] at h1 h4
  rw [hu] at h1
  exact ⟨v, os, ps, h1, h2, h3, h4⟩

/-! ### A stream that meets the conditions -/

def noneLikeB (H : Bytes → Bytes) (xs ys : List Bytes) : Bool :=
  let zs := ys.map fun y => (y, H y)
  xs.all fun x => let h := H x; zs.all fun z => h != z.2 || x == z.1

theorem noneLike_of_check {H : Bytes → Bytes} {xs ys : List Bytes} (h : noneLikeB H xs ys = true) : NoneLike H xs ys := by
  intro x hx y hy he
  have := List.all_eq_true.1 (List.all_eq_true.1 h x hx) (y, H y) (List.mem_map_of_mem (f := fun y => (y, H y)) hy)
  simp only [Bool.or_eq_true, bne_iff_ne, beq_iff_eq] at this
  exact this.resolve_left fun hn => hn he

def oldAlteredB (env : AuthEnv) (key : Bytes) (c : Codec) : (ps pr : List Bytes) → List (OldGop × OldGop) → Bool
  | _, _, [] => true
  | ps, pr, (s, r) :: l =>
    gopB r c &&
    (decide (pr ++ (r.pictures c).take 1 = ps ++ (s.pictures c).take 1) || (decide (s.sei.e.hashType = 0) &&
      noneLikeB (env.H env.oid) (oldInputs (env.H env.oid) (ps ++ (s.pictures c).take 1) (s.sei.doc c)) (oldInputs (env.H env.oid) (pr ++ (r.pictures c).take 1) (s.sei.doc c)) &&
      decide (env.verify key s.sei.e.signature (oldGopHash (env.H env.oid) (pr ++ (r.pictures c).take 1) (s.sei.doc c)) = 0))) &&
    oldAlteredB env key c (s.pictures c) (r.pictures c) l

theorem oldAltered_of_check {env : AuthEnv} {key : Bytes} {c : Codec} {l : List (OldGop × OldGop)} (hs : ∀ p ∈ l, p.2.sei = p.1.sei) : ∀ {ps pr : List Bytes}, oldAlteredB env key c ps pr l = true →
    OldAltered env key c ps pr l := by
  induction l with
  | nil => intro _ _ _; trivial
  | cons p l ih =>
    obtain ⟨s, r⟩ := p
    intro ps pr h
    unfold oldAlteredB at h
    simp only [Bool.and_eq_true, Bool.or_eq_true, decide_eq_true_eq] at h
    obtain ⟨⟨h1, h2⟩, h3⟩ := h
    refine ⟨shape_of_check h1, hs _ List.mem_cons_self, fun hn => ?_, ih (fun p hp => hs p (List.mem_cons_of_mem _ hp)) h3⟩
    rcases h2 with h2 | ⟨⟨h2, h3⟩, h4⟩
    · exact absurd h2 hn
    · exact ⟨h2, noneLike_of_check h3, fun _ => h4⟩

/-- Five GOPs, and the same ones after the last NAL unit of the second has been removed and a NAL unit of the fourth has been changed. -/
def oldDemoSent : List OldGop :=
  let i1 := toyNalu 'I' 1; let p1 := toyNalu 'P' 2; let p2 := toyNalu 'P' 3; let i2 := toyNalu 'I' 4; let p3 := toyNalu 'P' 5; let i3 := toyNalu 'I' 6
  let hs := fun l : List Bytes => oldHashes polyHash (l.map fun d => d.drop 4)
  [⟨oldDemoSei true [1, 2, 3, 4] false 7 (hs [i1]), [toyNalu 'A' 0], i1, [p1]⟩,
   ⟨oldDemoSei false [1, 7] true 8 (hs [i1, p1, i2]), [], i2, [p3, p2]⟩,
   ⟨oldDemoSei false [1] false 9 (hs [i2, p3, p2, i3]), [], i3, []⟩,
   ⟨oldDemoSei true [1, 4] false 10 (hs [i3, i1]), [], i1, [p1]⟩,
   ⟨oldDemoSei false [1] false 11 (hs [i1, p1, i2]), [], i2, []⟩,
   ⟨oldDemoSei false [1] false 12 (hs [i2, i3]), [], i3, []⟩,
   ⟨oldDemoSei false [1] false 13 (hs [i3, i3]), [], i3, []⟩]

def oldDemoGot : List OldGop :=
  (oldDemoSent.zip [[toyNalu 'P' 2], [toyNalu 'P' 5], [], [toyNalu 'P' 9], [], [], []]).map fun p => { p.1 with rest := p.2 }

/-- The claims as numbers. -/
def OldClaim.nums (k : OldClaim) : Nat × Nat × Nat × Bool := (k.expected, k.received, k.wrong, k.overall)

/-- The report after the removal: 4 NAL units (without the SEI) were sent and 3 received, the SEI included all of them are not OK; then one NAL unit is not OK; and so on. -/
example : (oldClaims .h264 0 false true (oldFlags .h264 [] [] (oldDemoSent.zip oldDemoGot))).filterMap (Option.map OldClaim.nums) =
    [(1, 1, 0, true), (3, 3, 0, true), (4, 3, 3, false), (2, 2, 1, false), (3, 3, 3, false), (2, 2, 1, false), (2, 2, 0, false)] := by decide +kernel

example : ∃ v os ps, Session.run polyEnv (newSession polyEnv .h264) (([toyNalu 'A' 0, toyNalu 'A' 0] ++ oldDemoGot.flatMap fun g => g.units .h264).map .nalu) = .ok (v, os ++ ps) ∧
    os.length = 2 ∧ AsClaimed (oldClaims .h264 0 false true (oldFlags .h264 [] [] (oldDemoSent.zip oldDemoGot))) ps := by
  have hz : oldDemoSent.zip oldDemoGot = (oldDemoSent.head (by decide), oldDemoGot.head (by decide)) :: oldDemoSent.tail.zip oldDemoGot.tail := rfl
  obtain ⟨s, os, ps, h1, h2, -, h4⟩ := C77_old_altered (env := polyEnv) (key := [9, 9, 9]) (c := .h264) (max := 40) (fun b => by simp [polyEnv, polyHash]) (by decide) (by decide) (by decide)
    (lead := [toyNalu 'A' 0, toyNalu 'A' 0]) (s := oldDemoSent.head (by decide)) (r := oldDemoGot.head (by decide)) (l := oldDemoSent.tail.zip oldDemoGot.tail)
    oldDemo_lead (by decide +kernel) (oldSigned_of_check (by decide +kernel)) (by
      rw [← hz]
      refine oldAltered_of_check ?_ (by decide +kernel)
      intro p hp
      have : oldDemoSent.zip oldDemoGot = (oldDemoSent.zip [[toyNalu 'P' 2], [toyNalu 'P' 5], [], [toyNalu 'P' 9], [], [], []]).map fun p => (p.1, { p.1 with rest := p.2 }) := rfl
      rw [this] at hp
      obtain ⟨q, -, rfl⟩ := List.mem_map.1 hp
      rfl) (by decide +kernel)
  rw [← hz] at h4
  exact ⟨s, os, ps, h1, h2, h4⟩

end SV
