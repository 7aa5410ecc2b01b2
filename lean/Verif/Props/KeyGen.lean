import Verif.Spec.KeyGen
import Verif.Props.Keys
/-! C79: generated keys. -/
namespace SV
namespace KeyGen
open Keys

theorem path_eq {dir : Bytes} {a : Algo} (h : dir ≠ []) : pathToKey dir (fileName a) = .ok (keyPath dir a) := by
  rw [C67_path_partial dir _ h]
  have h1 : dir.getLast? = some (dir.getLast h) := List.getLast?_eq_some_getLast h
  unfold keyPath fileName
  rw [h1]
  by_cases h2 : dir.getLast h = 47
  · cases a <;> simp [h2]
  · cases a <;> simp [h2]

/-- What `createKey` does, for each way that it can end. -/
inductive Ends (env : GenEnv) (w w' : World) (a : Algo) (path : Option Bytes) : Option (Nat × Bytes) → Option Rc → Prop
  | untouched {e} (files : w'.files = w.files) (gone : env.gen a = none ∨ ∃ p, path = some p ∧ env.opens p = false) (live : w'.blocks.live = w.blocks.live) : Ends env w w' a path none (some e)
  | removed {e p} (hp : path = some p) (why : env.writes = false) (files : w'.files = fun q => if q = p then none else w.files q) (live : w'.blocks.live = w.blocks.live) : Ends env w w' a path none (some e)
  | kept {e pem} (hg : env.gen a = some pem) (code : e = if env.bio && env.bioWrites && !pem.isEmpty then .memory else .externalError) (files : w'.files = fun q => if some q = path then some (env.stored q pem) else w.files q)
      (why : env.bio = false ∨ env.bioWrites = false ∨ pem = [] ∨ env.keyMem = false) (live : w'.blocks.live = w.blocks.live) : Ends env w w' a path none (some e)
  | done {pem k} (hg : env.gen a = some pem) (hn : pem ≠ []) (mem : env.keyMem = true) (files : w'.files = fun q => if some q = path then some (env.stored q pem) else w.files q)
      (fresh : w.blocks.next ≤ k) (live : w'.blocks.live = k :: w.blocks.live) : Ends env w w' a path (some (k, pem)) none

theorem writeFile_ends {env : GenEnv} {w : World} {path : Option Bytes} {pem : Bytes} :
    ∃ w' e, writeFile env w path pem = .ok (w', e) ∧ w.blocks.next ≤ w'.blocks.next ∧ w'.blocks.live = w.blocks.live ∧
      ((∃ p, e = some .externalError ∧ path = some p ∧ env.opens p = false ∧ w'.files = w.files) ∨
       (∃ p, e = some .externalError ∧ path = some p ∧ env.writes = false ∧ w'.files = fun q => if q = p then none else w.files q) ∨
       (e = none ∧ w'.files = fun q => if some q = path then some (env.stored q pem) else w.files q)) := by
  cases path with
  | none => exact ⟨w, none, rfl, Nat.le_refl _, rfl, .inr (.inr ⟨rfl, by funext q; simp⟩)⟩
  | some p =>
    cases ho : env.opens p with
    | false => exact ⟨w, _, by simp [writeFile, ho], Nat.le_refl _, rfl, .inl ⟨p, rfl, rfl, ho, rfl⟩⟩
    | true =>
      cases hw : env.writes with
      | false =>
        refine ⟨_, some .externalError, by simp [writeFile, ho, hw, World.free, World.alloc, World.setFile, Blocks.alloc, Blocks.free]; rfl, ?_, ?_, .inr (.inl ⟨p, rfl, rfl, rfl, ?_⟩)⟩
        · simp
        · rfl
        · funext q
          by_cases h : q = p <;> simp [h]
      | true =>
        refine ⟨_, none, by simp [writeFile, ho, hw, World.free, World.alloc, World.setFile, Blocks.alloc, Blocks.free]; rfl, ?_, ?_, .inr (.inr ⟨rfl, ?_⟩)⟩
        · simp
        · rfl
        · funext q
          by_cases h : q = p <;> simp [h]

theorem free_mem {w : World} {p : Nat} (h : p ∈ w.blocks.live) : w.free (some p) = .ok { w with blocks := { w.blocks with live := w.blocks.live.erase p } } := by
  simp [World.free, Blocks.free, h]

theorem free_next (w : World) : w.alloc.free (some w.blocks.next) = .ok { w with blocks := { w.blocks with next := w.blocks.next + 1 } } := by
  rw [free_mem (by simp [World.alloc, Blocks.alloc])]
  simp [World.alloc, Blocks.alloc]

theorem writeBuffer_ends {env : GenEnv} {w : World} {pem : Bytes} :
    ∃ w' m e, writeBuffer env w pem = .ok (w', m, e) ∧ w.blocks.next ≤ w'.blocks.next ∧ w'.files = w.files ∧
      ((m = none ∧ e = some (if env.bio && env.bioWrites && !pem.isEmpty then .memory else .externalError) ∧ (env.bio = false ∨ env.bioWrites = false ∨ pem = [] ∨ env.keyMem = false) ∧ w'.blocks.live = w.blocks.live) ∨
       (∃ k, m = some (k, pem) ∧ e = none ∧ pem ≠ [] ∧ env.keyMem = true ∧ w.blocks.next ≤ k ∧ w'.blocks.live = k :: w.blocks.live)) := by
  cases h1 : env.bio with
  | false => exact ⟨w, none, some .externalError, by simp [writeBuffer, h1], Nat.le_refl _, rfl, .inl ⟨rfl, rfl, .inl rfl, rfl⟩⟩
  | true =>
    by_cases h2 : env.bioWrites = false ∨ pem = []
    · refine ⟨{ w with blocks := { w.blocks with next := w.blocks.next + 1 } }, none, some .externalError, ?_, Nat.le_succ _, rfl,
        .inl ⟨rfl, (by rcases h2 with h2 | h2 <;> simp [h2]), .inr (h2.elim .inl fun h => .inr (.inl h)), rfl⟩⟩
      have h3 : (!env.bioWrites || pem.isEmpty) = true := by rcases h2 with h2 | h2 <;> simp [h2]
      simp only [writeBuffer, h1, h3, Bool.not_true, Bool.false_eq_true, if_false, if_true, free_next, Out.bind_ok]
    · have h3 : (!env.bioWrites || pem.isEmpty) = false := by
        simp only [not_or, Bool.not_eq_false] at h2
        simp [h2.1, h2.2]
      cases h4 : env.keyMem with
      | false =>
        refine ⟨{ w with blocks := { w.blocks with next := w.blocks.next + 1 } }, none, some .memory, ?_, Nat.le_succ _, rfl, .inl ⟨rfl, ?_, .inr (.inr (.inr rfl)), rfl⟩⟩
        rotate_left
        · simp only [not_or, Bool.not_eq_false] at h2; simp [h2.1, h2.2]
        simp only [writeBuffer, h1, h3, h4, Bool.not_true, Bool.not_false, Bool.false_eq_true, if_false, if_true, free_next, Out.bind_ok]
      | true =>
        refine ⟨{ w with blocks := ⟨w.blocks.next + 2, (w.blocks.next + 1) :: w.blocks.live⟩ }, some (w.blocks.next + 1, pem), none, ?_, by simp, rfl,
          .inr ⟨w.blocks.next + 1, rfl, rfl, (fun h => h2 (.inr h)), rfl, Nat.le_succ _, rfl⟩⟩
        simp only [writeBuffer, h1, h3, h4, Bool.not_true, Bool.false_eq_true, if_false]
        rw [free_mem (by simp [World.alloc, Blocks.alloc])]
        simp [World.alloc, Blocks.alloc, List.erase_cons]

theorem createKey_ends (env : GenEnv) (w : World) (a : Algo) (path : Option Bytes) :
    ∃ w' m e, createKey env w a path = .ok (w', m, e) ∧ Ends env w w' a path m e := by
  cases hg : env.gen a with
  | none => exact ⟨w, none, some .externalError, by simp [createKey, hg], .untouched rfl (.inl hg) rfl⟩
  | some pem =>
    obtain ⟨v, e, h1, h2, h3, h4⟩ := writeFile_ends (env := env) (w := w.alloc) (path := path) (pem := pem)
    have hl : v.blocks.live = w.blocks.next :: w.blocks.live := h3
    have hn : w.blocks.next + 1 ≤ v.blocks.next := h2
    have hf : v.free (some w.blocks.next) = .ok { v with blocks := { v.blocks with live := w.blocks.live } } := by
      rw [free_mem (by rw [hl]; simp), hl]; simp
    have hfail : ∀ x, e = some x → createKey env w a path = .ok ({ v with blocks := { v.blocks with live := w.blocks.live } }, none, some x) := by
      intro x hx
      subst hx
      simp only [createKey, hg, h1, Out.bind_ok, hf]
    rcases h4 with ⟨p, he, hp, ho, hfi⟩ | ⟨p, he, hp, hwr, hfi⟩ | ⟨he, hfi⟩
    · exact ⟨_, _, _, hfail _ he, .untouched hfi (.inr ⟨p, hp, ho⟩) rfl⟩
    · exact ⟨_, _, _, hfail _ he, .removed hp hwr hfi rfl⟩
    · subst he
      obtain ⟨u, m, e, g1, g2, g3, g4⟩ := writeBuffer_ends (env := env) (w := v) (pem := pem)
      rcases g4 with ⟨rfl, he, hw, gl⟩ | ⟨k, rfl, rfl, hne, hm, hk, gl⟩
      · have hu : u.free (some w.blocks.next) = .ok { u with blocks := { u.blocks with live := w.blocks.live } } := by
          rw [free_mem (by rw [gl, hl]; simp), gl, hl]; simp
        have := fun x (hx : e = some x) => (show createKey env w a path = .ok ({ u with blocks := { u.blocks with live := w.blocks.live } }, none, some x) by
          subst hx
          simp only [createKey, hg, h1, Out.bind_ok, g1, hu])
        exact ⟨_, _, _, this _ he, .kept hg rfl (g3.trans hfi) hw rfl⟩
      · have hne' : k ≠ w.blocks.next := by omega
        have hu : u.free (some w.blocks.next) = .ok { u with blocks := { u.blocks with live := k :: w.blocks.live } } := by
          rw [free_mem (by rw [gl, hl]; simp), gl, hl]
          simp [List.erase_cons, hne']
        refine ⟨{ u with blocks := { u.blocks with live := k :: w.blocks.live } }, some (k, pem), none, ?_, .done hg hne hm (g3.trans hfi) (by omega : w.blocks.next ≤ k) rfl⟩
        simp only [createKey, hg, h1, Out.bind_ok, g1, hu]

/-- The path that is used. -/
def usedPath (env : GenEnv) (a : Algo) (dir : Option Bytes) : Option Bytes := if env.pathMem then dir.map (keyPath · a) else none

theorem Ends.live {env : GenEnv} {w w' : World} {a : Algo} {path : Option Bytes} {m : Option (Nat × Bytes)} {e : Option Rc} (h : Ends env w w' a path m e) :
    w'.blocks.live = (m.map Prod.fst).toList ++ w.blocks.live ∧ ∀ k ∈ m, w.blocks.next ≤ k.1 := by
  cases h with
  | untouched _ _ h => exact ⟨h, by simp⟩
  | removed _ _ _ h => exact ⟨h, by simp⟩
  | kept _ _ _ _ h => exact ⟨h, by simp⟩
  | done _ _ _ _ hf h => exact ⟨h, by simpa using hf⟩

theorem makePath_eq {env : GenEnv} {w : World} {a : Algo} {dir : Option Bytes} (hd : ∀ d, dir = some d → d ≠ []) :
    ∃ v b, makePath env w a dir = .ok (v, b) ∧ b.map Prod.snd = usedPath env a dir ∧ v.files = w.files ∧ v.blocks.live = (b.map Prod.fst).toList ++ w.blocks.live ∧
      ∀ k ∈ b, k.1 < v.blocks.next := by
  cases dir with
  | none => exact ⟨w, none, rfl, by simp [usedPath], rfl, rfl, by simp⟩
  | some d =>
    cases hp : env.pathMem with
    | false => exact ⟨w, none, by simp [makePath, hp], by simp [usedPath, hp], rfl, rfl, by simp⟩
    | true =>
      refine ⟨w.alloc, some (w.blocks.next, keyPath d a), ?_, by simp [usedPath, hp], rfl, rfl, by simp [World.alloc, Blocks.alloc]⟩
      simp [makePath, hp, path_eq (hd d rfl)]

theorem generate_ends (env : GenEnv) (w : World) (a : Algo) {dir : Option Bytes} {key size : Bool} (hd : ∀ d, dir = some d → d ≠ []) (harg : dir.isSome = true ∨ key = true ∧ size = true) :
    ∃ v v' w' m e, generate env w a dir key size = .ok (w', if key && size then some m else none, e) ∧ v.files = w.files ∧ Ends env v v' a (usedPath env a dir) m e ∧ w'.files = v'.files ∧
      w'.blocks.live = (if key && size then (m.map Prod.fst).toList else []) ++ w.blocks.live := by
  obtain ⟨v, b, h1, h2, h3, h4, h5⟩ := makePath_eq (env := env) (w := w) (a := a) hd
  obtain ⟨v', m, e, g1, g2⟩ := createKey_ends env v a (usedPath env a dir)
  obtain ⟨g3, g4⟩ := g2.live
  rw [h4] at g3
  have hne : (dir.isNone && (!key || !size)) = false := by
    rcases harg with h | ⟨h, h'⟩
    · cases dir <;> simp_all
    · simp [h, h']
  have hfree : ∃ u, v'.free (b.map Prod.fst) = .ok u ∧ u.files = v'.files ∧ u.blocks.live = (m.map Prod.fst).toList ++ w.blocks.live := by
    cases b with
    | none => exact ⟨v', rfl, rfl, g3⟩
    | some b =>
      refine ⟨_, free_mem (p := b.1) (by rw [g3]; simp), rfl, ?_⟩
      dsimp only
      rw [g3]
      cases m with
      | none => simp
      | some k =>
        have hk : k.1 ≠ b.1 := by
          have := h5 b rfl
          have := g4 k rfl
          omega
        simp [List.erase_cons, hk]
  obtain ⟨u, k1, k2, k3⟩ := hfree
  cases hks : key && size with
  | true =>
    refine ⟨v, v', u, m, e, ?_, h3, g2, k2, by simpa using k3⟩
    unfold generate
    rw [if_neg (by simp [hne]), h1]
    simp only [Out.bind_ok, h2, g1, k1, hks, if_true]
  | false =>
    have hfree2 : ∃ u', u.free (m.map Prod.fst) = .ok u' ∧ u'.files = u.files ∧ u'.blocks.live = w.blocks.live := by
      cases m with
      | none => exact ⟨u, rfl, rfl, k3⟩
      | some k =>
        refine ⟨_, free_mem (p := k.1) (by rw [k3]; simp), rfl, ?_⟩
        dsimp only
        rw [k3]
        simp
    obtain ⟨u', j1, j2, j3⟩ := hfree2
    refine ⟨v, v', u', m, e, ?_, h3, g2, j2.trans k2, by simpa using j3⟩
    unfold generate
    rw [if_neg (by simp [hne]), h1]
    simp only [Out.bind_ok, h2, g1, k1, hks, Bool.false_eq_true, if_false, j1]

/-- **C79, memory.** Whatever fails, all memory, the file and the OpenSSL objects are released, except the key that is handed out; nothing is freed twice. -/
theorem C79_memory (env : GenEnv) (w : World) (a : Algo) (dir : Option Bytes) (key size : Bool) (hd : ∀ d, dir = some d → d ≠ []) :
    ∃ w' g e, generate env w a dir key size = .ok (w', g, e) ∧ w'.blocks.live = handedBlock g ++ w.blocks.live := by
  by_cases harg : dir.isSome = true ∨ key = true ∧ size = true
  · obtain ⟨v, v', w', m, e, h1, -, -, -, h5⟩ := generate_ends env w a hd harg
    refine ⟨w', _, e, h1, h5.trans ?_⟩
    cases hks : key && size with
    | false => rfl
    | true => cases m <;> rfl
  · refine ⟨w, none, some .invalidParameter, ?_, rfl⟩
    have hne : (dir.isNone && (!key || !size)) = true := by
      cases dir <;> cases key <;> cases size <;> simp_all
    simp [generate, hne]

/-- **C79, partial.** If SV_OK is returned, the new key is where it was asked for, and no other file has changed.

Missing: no memory for the path, or a file that cannot be written to its end when it is closed (`C79_path_false`, `C79_close_false`). -/
theorem C79_ok_partial {env : GenEnv} {w w' : World} {a : Algo} {dir : Option Bytes} {key size : Bool} {g : Option (Option (Nat × Bytes))} (hd : ∀ d, dir = some d → d ≠ [])
    (path : env.pathMem = true) (closed : ∀ p pem, env.stored p pem = pem) (h : generate env w a dir key size = .ok (w', g, none)) :
    ∃ pem, env.gen a = some pem ∧ pem ≠ [] ∧ Delivered w' g a dir (key && size) pem ∧ OthersKept w w' a dir := by
  by_cases harg : dir.isSome = true ∨ key = true ∧ size = true
  · obtain ⟨v, v', w1, m, e, h1, h2, h3, h4, -⟩ := generate_ends env w a hd harg
    rw [h] at h1
    injection h1 with h1
    injection h1 with hw h1
    injection h1 with hg he
    subst hw hg he
    cases h3 with
    | done hg hn _ hf hk hl =>
      rename_i pem k _
      refine ⟨pem, hg, hn, ⟨?_, ?_⟩, ?_⟩
      · intro d hdir
        rw [h4, hf]
        simp [usedPath, path, hdir, closed]
      · cases key && size with
        | false => rfl
        | true => exact ⟨k, rfl⟩
      · intro q hq
        rw [h4, hf, ← h2]
        have : some q ≠ usedPath env a dir := by
          cases dir with
          | none => simp [usedPath]
          | some d => simpa [usedPath, path] using hq d rfl
        simp [this]
  · have hne : (dir.isNone && (!key || !size)) = true := by
      cases dir <;> cases key <;> cases size <;> simp_all
    simp [generate, hne] at h

/-- **C79, partial.** If an error is returned, no key is handed out, no other file has changed, and the file of the key is as before or gone, or it holds the new key.

Missing: the last of these cases is not ruled out (`C79_left_false`); it needs a failure to make the copy in memory. -/
theorem C79_fail_partial {env : GenEnv} {w w' : World} {a : Algo} {dir : Option Bytes} {key size : Bool} {g : Option (Option (Nat × Bytes))} {e : Rc} (hd : ∀ d, dir = some d → d ≠ [])
    (h : generate env w a dir key size = .ok (w', g, some e)) :
    (g = none ∨ g = some none) ∧ OthersKept w w' a dir ∧
      ∀ d, dir = some d → w'.files (keyPath d a) = w.files (keyPath d a) ∨ w'.files (keyPath d a) = none ∨
        ∃ pem, env.gen a = some pem ∧ w'.files (keyPath d a) = some (env.stored (keyPath d a) pem) ∧ (env.bio = false ∨ env.bioWrites = false ∨ pem = [] ∨ env.keyMem = false) := by
  by_cases harg : dir.isSome = true ∨ key = true ∧ size = true
  · obtain ⟨v, v', w1, m, e', h1, h2, h3, h4, -⟩ := generate_ends env w a hd harg
    rw [h] at h1
    injection h1 with h1
    injection h1 with hw h1
    injection h1 with hg he
    subst hw hg he
    have hm : m = none := by cases h3 <;> rfl
    subst hm
    have hpath : ∀ q, (∀ d, dir = some d → q ≠ keyPath d a) → some q ≠ usedPath env a dir := by
      intro q hq
      cases dir with
      | none => simp [usedPath]
      | some d => cases hp : env.pathMem <;> simp [usedPath, hp]; exact hq d rfl
    refine ⟨by cases key && size <;> simp, ?_, ?_⟩
    · intro q hq
      rw [h4, ← h2]
      cases h3 with
      | untouched hf _ _ => rw [hf]
      | removed hp _ hf _ =>
        rw [hf]
        exact if_neg fun h => hpath q hq (by rw [hp, h])
      | kept hg _ hf _ _ => rw [hf]; exact if_neg (hpath q hq)
    · intro d hdir
      rw [h4, ← h2]
      cases h3 with
      | untouched hf _ _ => rw [hf]; exact .inl rfl
      | removed hp _ hf _ =>
        rename_i p _ _
        rw [hf]
        by_cases hq : keyPath d a = p
        · exact .inr (.inl (if_pos hq))
        · exact .inl (if_neg hq)
      | kept hg _ hf hw _ =>
        rename_i pem _ _
        rw [hf]
        by_cases hq : some (keyPath d a) = usedPath env a dir
        · exact .inr (.inr ⟨pem, hg, if_pos hq, hw⟩)
        · exact .inl (if_neg hq)
  · have hne : (dir.isNone && (!key || !size)) = true := by
      cases dir <;> cases key <;> cases size <;> simp_all
    simp [generate, hne] at h
    obtain ⟨rfl, rfl, -⟩ := h
    exact ⟨.inl rfl, fun q _ => rfl, fun d _ => .inl rfl⟩

/-- **C79, arguments.** A call that asks for the key neither in a file nor in memory is refused, as is an unknown algorithm; nothing happens then. -/
theorem C79_arguments (env : GenEnv) (w : World) (algo : Nat) (dir : Option Bytes) (key size : Bool) :
    (dir = none ∧ (key = false ∨ size = false) → generateAny env w algo dir key size = .ok (w, none, some .invalidParameter)) ∧
    (¬ (dir = none ∧ (key = false ∨ size = false)) → 2 ≤ algo → generateAny env w algo dir key size = .ok (w, none, some .notSupported)) ∧
    generateAny env w 0 dir key size = generate env w .rsa dir key size ∧ generateAny env w 1 dir key size = generate env w .ecdsa dir key size := by
  refine ⟨?_, ?_, ?_, ?_⟩
  · rintro ⟨rfl, h⟩
    have : (!key || !size) = true := by rcases h with h | h <;> simp [h]
    simp [generateAny, this]
  · intro h h2
    have : (dir.isNone && (!key || !size)) = false := by cases dir <;> cases key <;> cases size <;> simp_all
    unfold generateAny
    rw [if_neg (by simp [this])]
    match algo, h2 with
    | n + 2, _ => rfl
  · unfold generateAny
    split
    · rename_i h; simp [generate, h]
    · rfl
  · unfold generateAny
    split
    · rename_i h; simp [generate, h]
    · rfl

/-! ### Cases -/

/-- Everything succeeds; the key is `pem`. -/
def calm (pem : Bytes) : GenEnv where
  gen _ := some pem
  pathMem := true
  opens _ := true
  writes := true
  stored _ c := c
  bio := true
  bioWrites := true
  keyMem := true

/-- The conditions of `C79_ok_partial` and `C79_memory` can be met: in the directory "d", with the key "k", asked for in both places. -/
example : ∃ w' p, generate (calm [107]) ⟨fun _ => none, {}⟩ .rsa (some [100]) true true = .ok (w', some (some (p, [107])), none) ∧
    w'.files (ascii "d/private_rsa_key.pem") = some [107] ∧ w'.blocks.live = [p] := by
  refine ⟨_, _, rfl, ?_, ?_⟩ <;> decide +kernel

/-- And those of `C79_fail_partial`: the file cannot be written, and an older key in it is lost. -/
example : ∃ w', generate { calm [107] with writes := false } ⟨fun _ => some [111], {}⟩ .ecdsa (some [100, 47]) true true = .ok (w', some none, some .externalError) ∧
    w'.files (ascii "d/private_ecdsa_key.pem") = none ∧ w'.files [1] = some [111] ∧ w'.blocks.live = [] := by
  refine ⟨_, rfl, ?_, ?_, ?_⟩ <;> decide +kernel

/-- **C79 is false without memory for the path.** SV_OK is returned, although nothing was written to any file and no key is handed out. -/
theorem C79_path_false (pem d : Bytes) (hp : pem ≠ []) (hd : d ≠ []) (w : World) (a : Algo) :
    ∃ w', generate { calm pem with pathMem := false } w a (some d) false false = .ok (w', none, none) ∧ w'.files = w.files := by
  obtain ⟨v, v', w', m, e, h1, h2, h3, h4, -⟩ := generate_ends { calm pem with pathMem := false } w a (dir := some d) (key := false) (size := false) (by rintro _ ⟨⟩; exact hd) (.inl rfl)
  cases h3 with
  | untouched _ hg _ => rcases hg with hg | ⟨_, hg, _⟩ <;> cases hg
  | removed hg => cases hg
  | kept hg _ _ hw _ =>
    injection hg with hg; subst hg
    rcases hw with hw | hw | hw | hw
    · cases hw
    · cases hw
    · exact absurd hw hp
    · cases hw
  | done _ _ _ hf _ _ => exact ⟨w', h1, by rw [h4, hf, h2]; funext q; simp [usedPath]⟩

/-- **C79 is false if the file cannot be written to its end when it is closed.** SV_OK is returned although the file, here, is empty. -/
theorem C79_close_false (pem d : Bytes) (hp : pem ≠ []) (hd : d ≠ []) (w : World) (a : Algo) :
    ∃ w', generate { calm pem with stored := fun _ _ => [] } w a (some d) false false = .ok (w', none, none) ∧ w'.files (keyPath d a) = some [] := by
  obtain ⟨v, v', w', m, e, h1, h2, h3, h4, -⟩ := generate_ends { calm pem with stored := fun _ _ => [] } w a (dir := some d) (key := false) (size := false) (by rintro _ ⟨⟩; exact hd) (.inl rfl)
  cases h3 with
  | untouched _ hg _ =>
    rcases hg with hg | ⟨_, _, hg⟩
    · cases hg
    · cases hg
  | removed _ hg => cases hg
  | kept hg _ _ hw _ =>
    injection hg with hg; subst hg
    rcases hw with hw | hw | hw | hw
    · cases hw
    · cases hw
    · exact absurd hw hp
    · cases hw
  | done _ _ _ hf _ _ => exact ⟨w', h1, by rw [h4, hf]; simp [usedPath, calm]⟩

/-- **C79 is false if the copy in memory cannot be made.** An error is returned although the new key is in the file; this also happens if the key is only asked for in the file. -/
theorem C79_left_false (pem d : Bytes) (hp : pem ≠ []) (hd : d ≠ []) (w : World) (a : Algo) :
    ∃ w', generate { calm pem with keyMem := false } w a (some d) false false = .ok (w', none, some .memory) ∧ w'.files (keyPath d a) = some pem := by
  obtain ⟨v, v', w', m, e, h1, h2, h3, h4, -⟩ := generate_ends { calm pem with keyMem := false } w a (dir := some d) (key := false) (size := false) (by rintro _ ⟨⟩; exact hd) (.inl rfl)
  cases h3 with
  | untouched _ hg _ =>
    rcases hg with hg | ⟨_, _, hg⟩
    · cases hg
    · cases hg
  | removed _ hg => cases hg
  | kept hg hc hf _ _ =>
    injection hg with hg; subst hg
    have : pem.isEmpty = false := by cases pem <;> simp_all
    rw [hc] at h1
    refine ⟨w', ?_, by rw [h4, hf]; simp [usedPath, calm]⟩
    rw [h1]
    simp [calm, this]
  | done _ _ hm => cases hm

end KeyGen
end SV
