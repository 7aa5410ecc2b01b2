import Verif.Model.Report
import Verif.Spec.Version
/-! Version comparison (C25). -/
namespace SV

open Spec

theorem digit_facts : ∀ n : Fin 10, isDig (Char.ofNat ('0'.toNat + n.val)) = true ∧
    (Char.ofNat ('0'.toNat + n.val)).toNat - '0'.toNat = n.val := by
  decide +kernel

theorem digitsVal_snoc (l : List Char) (c : Char) :
    digitsVal (l ++ [c]) = 10 * digitsVal l + (c.toNat - '0'.toNat) := by
  simp [digitsVal, List.foldl_append]

theorem decimal_facts (n : Nat) : (∀ c ∈ decimal n, isDig c = true) ∧ decimal n ≠ [] ∧ digitsVal (decimal n) = n := by
  induction n using Nat.strongRecOn with
  | _ n ih =>
    rw [decimal]
    split
    · rename_i h
      have := digit_facts ⟨n, h⟩
      refine ⟨?_, by simp, ?_⟩
      · intro c hc
        simp only [List.mem_singleton] at hc
        rw [hc]; exact this.1
      · have h0 := digitsVal_snoc [] (Char.ofNat ('0'.toNat + n))
        simp only [List.nil_append] at h0
        rw [h0, this.2]
        simp [digitsVal]
    · rename_i h
      have hlt : n / 10 < n := by omega
      obtain ⟨h1, h2, h3⟩ := ih _ hlt
      have := digit_facts ⟨n % 10, by omega⟩
      refine ⟨?_, by simp, ?_⟩
      · intro c hc
        rw [List.mem_append, List.mem_singleton] at hc
        rcases hc with hc | hc
        · exact h1 c hc
        · rw [hc]; exact this.1
      · rw [digitsVal_snoc, h3, this.2]
        show 10 * (n / 10) + n % 10 = n
        omega

theorem dig_not_ws {c : Char} (h : isDig c = true) : isWs c = false ∧ c ≠ '-' ∧ c ≠ '+' ∧ c ≠ '.' := by
  have hc : '0' ≤ c ∧ c ≤ '9' := by simpa [isDig] using h
  have hne : ∀ d : Char, d < '0' → c ≠ d := by
    rintro d hd rfl
    exact absurd hd (by simpa using hc.1)
  refine ⟨?_, hne _ (by decide), hne _ (by decide), hne _ (by decide)⟩
  simp only [isWs, Bool.or_eq_false_iff, decide_eq_false_iff_not]
  refine ⟨⟨⟨⟨⟨?_, ?_⟩, ?_⟩, ?_⟩, ?_⟩, ?_⟩ <;> exact hne _ (by decide)

theorem takeWhile_all {p : Char → Bool} {l r : List Char} (hl : ∀ c ∈ l, p c = true)
    (hr : ∀ c, r.head? = some c → p c = false) :
    (l ++ r).takeWhile p = l ∧ (l ++ r).dropWhile p = r := by
  rw [List.takeWhile_append_of_pos hl, List.dropWhile_append_of_pos hl]
  cases r with
  | nil => simp
  | cons c r =>
    have := hr c rfl
    simp [List.takeWhile_cons, this]

/-- `scanInt` after white space and sign. -/
theorem scanInt_digits (ws sign ds r : List Char) (hws : ∀ c ∈ ws, isWs c = true)
    (hs : sign = [] ∨ sign = ['-'] ∨ sign = ['+']) (hne : ds ≠ []) (hd : ∀ c ∈ ds, isDig c = true)
    (hr : ∀ c, r.head? = some c → isDig c = false) :
    scanInt (ws ++ sign ++ ds ++ r) =
      (let v : Int := if sign = ['-'] then - (digitsVal ds : Int) else digitsVal ds
       if v < -2147483648 ∨ 2147483647 < v then .ub .intOverflow else .ok (some (v, r))) := by
  obtain ⟨d, ds', rfl⟩ := List.exists_cons_of_ne_nil hne
  have hd0 := dig_not_ws (hd d (by simp))
  have hsplit := takeWhile_all hd hr
  have hdrop : (ws ++ sign ++ (d :: ds') ++ r).dropWhile isWs = sign ++ (d :: ds') ++ r := by
    have h1 : ws ++ sign ++ (d :: ds') ++ r = ws ++ (sign ++ (d :: ds') ++ r) := by simp
    rw [h1]
    refine (takeWhile_all hws ?_).2
    intro c hc
    rcases hs with rfl | rfl | rfl
    · simp at hc; subst hc; exact hd0.1
    · simp at hc; subst hc; decide
    · simp at hc; subst hc; decide
  have e : ∀ (s t : List Char) (neg : Bool), s = t → t = (d :: ds') ++ r →
      (if t.takeWhile isDig = [] then Out.ok none
        else if (if neg then - (digitsVal (t.takeWhile isDig) : Int) else digitsVal (t.takeWhile isDig)) < -2147483648 ∨
          2147483647 < (if neg then - (digitsVal (t.takeWhile isDig) : Int) else digitsVal (t.takeWhile isDig))
        then .ub .intOverflow
        else .ok (some ((if neg then - (digitsVal (t.takeWhile isDig) : Int) else digitsVal (t.takeWhile isDig)),
          t.dropWhile isDig))) =
      (if (if neg then - (digitsVal (d :: ds') : Int) else digitsVal (d :: ds')) < -2147483648 ∨
          2147483647 < (if neg then - (digitsVal (d :: ds') : Int) else digitsVal (d :: ds'))
        then .ub .intOverflow
        else .ok (some ((if neg then - (digitsVal (d :: ds') : Int) else digitsVal (d :: ds')), r))) := by
    rintro s t neg rfl rfl
    rw [hsplit.1, hsplit.2]
    simp
  simp only [scanInt, hdrop]
  rcases hs with rfl | rfl | rfl
  · have := e (d :: ds' ++ r) _ false rfl rfl
    have hm : skipSign ([] ++ (d :: ds') ++ r) = d :: ds' ++ r := by simp [skipSign, hd0.2.1, hd0.2.2.1]
    rw [hm]
    simpa [hd0.2.1] using this
  · have := e (d :: ds' ++ r) _ true rfl rfl
    simpa [skipSign] using this
  · have := e (d :: ds' ++ r) _ false rfl rfl
    simpa [skipSign] using this

theorem scanInt_decimal (n : Nat) (hn : n < 2 ^ 31) (r : List Char) (hr : ∀ c, r.head? = some c → isDig c = false) :
    scanInt (decimal n ++ r) = .ok (some ((n : Int), r)) := by
  obtain ⟨h1, h2, h3⟩ := decimal_facts n
  have := scanInt_digits [] [] (decimal n) r (by simp) (Or.inl rfl) h2 h1 hr
  simp only [List.nil_append, h3] at this
  rw [this]
  have h : ¬ ((n : Int) < -2147483648 ∨ 2147483647 < (n : Int)) := by omega
  simp [h]

theorem parseVersion_str (x : Ver) (hx : x.small) :
    parseVersion x.str = .ok (some [(x.major : Int), (x.minor : Int), (x.patch : Int)]) := by
  have hdot : ∀ (r : List Char) (c : Char), ('.' :: r).head? = some c → isDig c = false := by
    intro r c hc
    simp at hc
    subst hc
    decide
  have h1 := scanInt_decimal x.major hx.1 ('.' :: (decimal x.minor ++ '.' :: decimal x.patch)) (hdot _)
  have h2 := scanInt_decimal x.minor hx.2.1 ('.' :: decimal x.patch) (hdot _)
  have h3 := scanInt_decimal x.patch hx.2.2 [] (by simp)
  rw [List.append_nil] at h3
  simp only [parseVersion, Ver.str, versionStr, scanChar, if_true, h1, Out.bind_ok, h2, h3, Out.pure_eq]

theorem versionDiff_sign (x y : Ver) (hx : x.small) (hy : y.small) :
    ∃ d, versionDiff [(x.major : Int), x.minor, x.patch] [(y.major : Int), y.minor, y.patch] = .ok d ∧
      (d = 0 ↔ x = y) ∧ (0 < d ↔ y.lt x) := by
  obtain ⟨a, b, c⟩ := x
  obtain ⟨a', b', c'⟩ := y
  simp only [Ver.small] at hx hy
  simp only [versionDiff, Ver.lt, Ver.mk.injEq]
  by_cases h1 : a = a'
  · subst h1
    by_cases h2 : b = b'
    · subst h2
      by_cases h3 : c = c'
      · subst h3
        exact ⟨0, by simp, by simp, by simp⟩
      · have e : (c : Int) - c' ≠ 0 := by omega
        have e2 : ¬((c : Int) - c' < -2147483648 ∨ 2147483647 < (c : Int) - c') := by omega
        refine ⟨(c : Int) - c', by simp [e, e2], ?_, ?_⟩
        · simp [h3]; omega
        · simp; 
    · have e : (b : Int) - b' ≠ 0 := by omega
      have e2 : ¬((b : Int) - b' < -2147483648 ∨ 2147483647 < (b : Int) - b') := by omega
      refine ⟨(b : Int) - b', by simp [e, e2], ?_, ?_⟩
      · simp [h2]; omega
      · constructor
        · intro h; right; exact ⟨rfl, Or.inl (by omega)⟩
        · intro h; omega
  · have e : (a : Int) - a' ≠ 0 := by omega
    have e2 : ¬((a : Int) - a' < -2147483648 ∨ 2147483647 < (a : Int) - a') := by omega
    refine ⟨(a : Int) - a', by simp [e, e2], ?_, ?_⟩
    · simp [h1]; omega
    · constructor
      · intro h; left; omega
      · intro h; omega

/-- **C25.** Comparing two version strings gives 0 exactly if the versions are equal, 1 exactly if the first one is newer
in the lexicographic order and 2 exactly if the second one is newer. -/
theorem C25_order (x y : Ver) (hx : x.small) (hy : y.small) :
    ∃ r, compareVersions (some x.str) (some y.str) = .ok r ∧
      (r = 0 ↔ x = y) ∧ (r = 1 ↔ y.lt x) ∧ (r = 2 ↔ x.lt y) := by
  obtain ⟨d, h1, h2, h3⟩ := versionDiff_sign x y hx hy
  have h4 : x.lt y ↔ d < 0 := by
    constructor
    · intro h
      have a1 : ¬ x = y := by rintro rfl; simp only [Ver.lt] at h; omega
      have a2 : ¬ y.lt x := by intro h'; simp only [Ver.lt] at h h'; omega
      rw [← h2] at a1
      rw [← h3] at a2
      omega
    · intro h
      have a1 : ¬ x = y := by rw [← h2]; omega
      have a2 : ¬ y.lt x := by rw [← h3]; omega
      obtain ⟨a, b, c⟩ := x
      obtain ⟨a', b', c'⟩ := y
      simp only [Ver.lt, Ver.mk.injEq] at *
      omega
  refine ⟨if d = 0 then 0 else if d > 0 then 1 else 2, ?_, ?_, ?_, ?_⟩
  · simp only [compareVersions, parseVersion_str x hx, parseVersion_str y hy, Out.bind_ok, h1, Out.pure_eq]
  · rw [← h2]; split
    · simp_all
    · split <;> simp_all
  · rw [← h3]; split
    · simp_all
    · split
      · simp_all
      · simp_all
  · rw [h4]; split
    · simp_all
    · split
      · constructor
        · intro h; simp at h
        · intro h; omega
      · constructor
        · intro _; omega
        · intro _; rfl

/-- **C25.** Antisymmetry: the first version is newer exactly if, with the arguments exchanged, the second one is. -/
theorem C25_antisymm (x y : Ver) (hx : x.small) (hy : y.small) :
    compareVersions (some x.str) (some y.str) = .ok 1 ↔ compareVersions (some y.str) (some x.str) = .ok 2 := by
  obtain ⟨r, h1, _, h3, _⟩ := C25_order x y hx hy
  obtain ⟨q, g1, _, _, g4⟩ := C25_order y x hy hx
  rw [h1, g1, Out.ok.injEq, Out.ok.injEq, h3, g4]

/-- **C25.** Transitivity. -/
theorem C25_trans (x y z : Ver) (hx : x.small) (hy : y.small) (hz : z.small)
    (h1 : compareVersions (some x.str) (some y.str) = .ok 1)
    (h2 : compareVersions (some y.str) (some z.str) = .ok 1) :
    compareVersions (some x.str) (some z.str) = .ok 1 := by
  obtain ⟨r, a1, _, a3, _⟩ := C25_order x y hx hy
  obtain ⟨q, b1, _, b3, _⟩ := C25_order y z hy hz
  obtain ⟨p, c1, _, c3, _⟩ := C25_order x z hx hz
  rw [a1, Out.ok.injEq, a3] at h1
  rw [b1, Out.ok.injEq, b3] at h2
  rw [c1, Out.ok.injEq, c3]
  simp only [Ver.lt] at *
  omega

example : (⟨1, 1, 29⟩ : Ver).small ∧ (⟨2147483647, 0, 10⟩ : Ver).small := by
  simp [Ver.small]

example : compareVersions (some "v1.2.10".toList) (some "v1.2.9".toList) = .ok 1 := by decide +kernel

/-! Malformed strings. -/

theorem digitsVal_le (d : List Char) (hd : ∀ c ∈ d, isDig c = true) : digitsVal d < 10 ^ d.length := by
  generalize hn : d.length = n
  induction n generalizing d with
  | zero =>
    have : d = [] := List.length_eq_zero_iff.1 hn
    subst this
    simp [digitsVal]
  | succ n ih =>
    rcases List.eq_nil_or_concat d with rfl | ⟨l, c, rfl⟩
    · simp at hn
    rw [List.concat_eq_append] at hd hn ⊢
    have h1 := ih l (fun c hc => hd c (by simp [hc])) (by simpa using hn)
    have hc : c.toNat - '0'.toNat ≤ 9 := by
      have : c ≤ '9' := by
        have := hd c (by simp)
        simp only [isDig, Bool.and_eq_true, decide_eq_true_eq] at this
        exact this.2
      have h9 : c.toNat ≤ '9'.toNat := this
      have : '9'.toNat = 57 := rfl
      have : '0'.toNat = 48 := rfl
      omega
    rw [digitsVal_snoc, Nat.pow_succ]
    omega

theorem ShortNumbers.suffix {a s : List Char} (h : ShortNumbers (a ++ s)) : ShortNumbers s := by
  intro l d r he hd
  exact h (a ++ l) d r (by simp [he]) hd

theorem scanInt_isInt (a r : List Char) (ha : IsInt a) (hr : ∀ c, r.head? = some c → isDig c = false)
    (hs : ShortNumbers (a ++ r)) :
    ∃ v : Int, scanInt (a ++ r) = .ok (some (v, r)) ∧ -1000000000 < v ∧ v < 1000000000 := by
  obtain ⟨ws, sign, ds, rfl, h1, h2, h3, h4⟩ := ha
  have hl := hs (ws ++ sign) ds r (by simp) h4
  have hv := digitsVal_le ds h4
  have hp : 10 ^ ds.length ≤ 10 ^ 9 := Nat.pow_le_pow_right (by omega) hl
  have hb : digitsVal ds < 1000000000 := by omega
  refine ⟨if sign = ['-'] then - (digitsVal ds : Int) else digitsVal ds, ?_, ?_, ?_⟩
  · rw [scanInt_digits ws sign ds r h1 h2 h3 h4 hr]
    simp only
    rw [if_neg]
    split <;> omega
  · split <;> omega
  · split <;> omega

theorem isInt_extend (a r : List Char) (ha : IsInt a) :
    ∃ a' r', a ++ r = a' ++ r' ∧ IsInt a' ∧ ∀ c, r'.head? = some c → isDig c = false := by
  obtain ⟨ws, sign, ds, rfl, h1, h2, h3, h4⟩ := ha
  refine ⟨ws ++ sign ++ (ds ++ r.takeWhile isDig), r.dropWhile isDig, ?_, ?_, ?_⟩
  · simp [List.takeWhile_append_dropWhile]
  · refine ⟨ws, sign, _, rfl, h1, h2, by simp [h3], ?_⟩
    intro c hc
    rw [List.mem_append] at hc
    rcases hc with hc | hc
    · exact h4 c hc
    · have := List.all_takeWhile (p := isDig) (l := r)
      rw [List.all_eq_true] at this
      exact this c hc
  · intro c hc
    have := List.head?_dropWhile_not isDig r
    rw [hc] at this
    simpa using this

theorem scanInt_cases (s : List Char) (hs : ShortNumbers s) :
    (scanInt s = .ok none) ∨
      ∃ v a r, scanInt s = .ok (some (v, r)) ∧ s = a ++ r ∧ IsInt a ∧ -1000000000 < v ∧ v < 1000000000 := by
  by_cases h : ∃ a r, s = a ++ r ∧ IsInt a
  · obtain ⟨a, r, rfl, ha⟩ := h
    obtain ⟨a', r', he, ha', hr'⟩ := isInt_extend a r ha
    rw [he] at hs ⊢
    obtain ⟨v, hv, hb⟩ := scanInt_isInt a' r' ha' hr' hs
    exact Or.inr ⟨v, a', r', hv, rfl, ha', hb⟩
  · left
    simp only [scanInt]
    rw [if_pos]
    by_cases hd : (skipSign (s.dropWhile isWs)).takeWhile isDig = []
    · exact hd
    · exfalso
      apply h
      have hws : ∀ c ∈ s.takeWhile isWs, isWs c = true := by
        have := List.all_takeWhile (p := isWs) (l := s)
        rwa [List.all_eq_true] at this
      have hdig : ∀ t : List Char, ∀ c ∈ t.takeWhile isDig, isDig c = true := by
        intro t
        have := List.all_takeWhile (p := isDig) (l := t)
        rwa [List.all_eq_true] at this
      have hse := List.takeWhile_append_dropWhile (p := isWs) (l := s)
      revert hd hse
      generalize s.dropWhile isWs = t
      intro hd hse
      have hsk : (∃ r, t = '-' :: r ∧ skipSign t = r) ∨ (∃ r, t = '+' :: r ∧ skipSign t = r) ∨ skipSign t = t := by
        cases t with
        | nil => exact Or.inr (Or.inr rfl)
        | cons c r =>
          by_cases h1 : c = '-'
          · exact Or.inl ⟨r, by rw [h1], by simp [skipSign, h1]⟩
          · by_cases h2 : c = '+'
            · exact Or.inr (Or.inl ⟨r, by rw [h2], by simp [skipSign, h2]⟩)
            · exact Or.inr (Or.inr (by simp [skipSign, h1, h2]))
      rcases hsk with ⟨r, rfl, hsk⟩ | ⟨r, rfl, hsk⟩ | hsk <;> rw [hsk] at hd
      · refine ⟨s.takeWhile isWs ++ ['-'] ++ r.takeWhile isDig, r.dropWhile isDig, ?_, ?_⟩
        · rw [← hse]; simp [List.takeWhile_append_dropWhile, hse]
        · exact ⟨_, _, _, rfl, hws, Or.inr (Or.inl rfl), hd, hdig _⟩
      · refine ⟨s.takeWhile isWs ++ ['+'] ++ r.takeWhile isDig, r.dropWhile isDig, ?_, ?_⟩
        · rw [← hse]; simp [List.takeWhile_append_dropWhile, hse]
        · exact ⟨_, _, _, rfl, hws, Or.inr (Or.inr rfl), hd, hdig _⟩
      · refine ⟨s.takeWhile isWs ++ [] ++ t.takeWhile isDig, t.dropWhile isDig, ?_, ?_⟩
        · rw [← hse]; simp [List.takeWhile_append_dropWhile, hse]
        · exact ⟨_, _, _, rfl, hws, Or.inl rfl, hd, hdig _⟩

theorem parseVersion_cases (s : List Char) (hs : ShortNumbers s) :
    (WellFormed s ∧ ∃ a b c, parseVersion s = .ok (some [a, b, c]) ∧ (-1000000000 < a ∧ a < 1000000000) ∧
      (-1000000000 < b ∧ b < 1000000000) ∧ (-1000000000 < c ∧ c < 1000000000)) ∨
    (¬ WellFormed s ∧ parseVersion s = .ok none) := by
  have hdot : ∀ (r : List Char) (c : Char), ('.' :: r).head? = some c → isDig c = false := by
    intro r c hc
    simp at hc
    subst hc
    decide
  by_cases hw : WellFormed s
  · left
    refine ⟨hw, ?_⟩
    obtain ⟨a, b, c, rest, rfl, ha, hb, hc⟩ := hw
    have s1 : ShortNumbers (a ++ '.' :: (b ++ '.' :: (c ++ rest))) := ShortNumbers.suffix (a := ['v']) hs
    have s2 : ShortNumbers (b ++ '.' :: (c ++ rest)) := ShortNumbers.suffix (a := a ++ ['.']) (by simpa using s1)
    have s3 : ShortNumbers (c ++ rest) := ShortNumbers.suffix (a := b ++ ['.']) (by simpa using s2)
    obtain ⟨v1, e1, b1⟩ := scanInt_isInt a _ ha (hdot _) s1
    obtain ⟨v2, e2, b2⟩ := scanInt_isInt b _ hb (hdot _) s2
    obtain ⟨c', r', he, hc', hr'⟩ := isInt_extend c rest hc
    rw [he] at s3
    obtain ⟨v3, e3, b3⟩ := scanInt_isInt c' r' hc' hr' s3
    rw [← he] at e3
    refine ⟨v1, v2, v3, ?_, b1, b2, b3⟩
    simp only [parseVersion, scanChar, if_true, e1, e2, e3, Out.bind_ok, Out.pure_eq]
  · right
    refine ⟨hw, ?_⟩
    cases s with
    | nil => rfl
    | cons v t =>
      by_cases hv : v = 'v'
      · subst hv
        have s1 : ShortNumbers t := ShortNumbers.suffix (a := ['v']) hs
        simp only [parseVersion, scanChar, if_true]
        rcases scanInt_cases t s1 with e1 | ⟨v1, a, r1, e1, rfl, ha, -⟩
        · rw [e1]; rfl
        rw [e1]
        simp only [Out.bind_ok]
        cases r1 with
        | nil => rfl
        | cons d1 r1 =>
          by_cases hd1 : d1 = '.'
          · subst hd1
            have s2 : ShortNumbers r1 := ShortNumbers.suffix (a := a ++ ['.']) (by simpa using s1)
            simp only [if_true]
            rcases scanInt_cases r1 s2 with e2 | ⟨v2, b, r2, e2, rfl, hb, -⟩
            · rw [e2]; rfl
            rw [e2]
            simp only [Out.bind_ok]
            cases r2 with
            | nil => rfl
            | cons d2 r2 =>
              by_cases hd2 : d2 = '.'
              · subst hd2
                have s3 : ShortNumbers r2 := ShortNumbers.suffix (a := b ++ ['.']) (by simpa using s2)
                simp only [if_true]
                rcases scanInt_cases r2 s3 with e3 | ⟨v3, c, r3, e3, rfl, hc, -⟩
                · rw [e3]; rfl
                · exact absurd ⟨a, b, c, r3, rfl, ha, hb, hc⟩ hw
              · simp [hd2]
          · simp [hd1]
      · simp [parseVersion, scanChar, hv]

/-- **C25.** A comparison of strings without overlong numbers always ends in -1, 0, 1 or 2, and in the error value -1
exactly if one of the strings is malformed. A NULL string is an error as well. -/
theorem C25_malformed (s t : List Char) (hs : ShortNumbers s) (ht : ShortNumbers t) :
    ∃ r, compareVersions (some s) (some t) = .ok r ∧ (r = -1 ∨ r = 0 ∨ r = 1 ∨ r = 2) ∧
      (r = -1 ↔ ¬ (WellFormed s ∧ WellFormed t)) := by
  rcases parseVersion_cases s hs with ⟨w1, a, b, c, e1, b1, b2, b3⟩ | ⟨w1, e1⟩
  · rcases parseVersion_cases t ht with ⟨w2, a', b', c', e2, c1, c2, c3⟩ | ⟨w2, e2⟩
    · have hd : ∃ d, versionDiff [a, b, c] [a', b', c'] = .ok d := by
        simp only [versionDiff]
        rw [if_neg (by omega)]
        split
        · rw [if_neg (by omega)]
          split
          · rw [if_neg (by omega)]
            split <;> exact ⟨_, rfl⟩
          · exact ⟨_, rfl⟩
        · exact ⟨_, rfl⟩
      obtain ⟨d, hd⟩ := hd
      refine ⟨if d = 0 then 0 else if d > 0 then 1 else 2, ?_, ?_, ?_⟩
      · simp only [compareVersions, e1, e2, Out.bind_ok, hd, Out.pure_eq]
      · repeat' split
        all_goals simp
      · simp only [w1, w2, and_self, not_true, iff_false]
        repeat' split
        all_goals simp
    · exact ⟨-1, by simp [compareVersions, e1, e2], by simp, by simp [w2]⟩
  · exact ⟨-1, by simp [compareVersions, e1], by simp, by simp [w1]⟩

/-- **C25.** NULL strings are reported as errors. -/
theorem C25_null (s : Option (List Char)) : compareVersions none s = .ok (-1) ∧ compareVersions s none = .ok (-1) := by
  cases s <;> exact ⟨rfl, rfl⟩

/-- A number that does not fit in an `int` is undefined behaviour in `sscanf`. -/
theorem C25_overflow : compareVersions (some "v1.2.99999999999".toList) (some "v1.2.9".toList) = .ub .intOverflow := by
  decide +kernel

example : WellFormed "v1. -2.003beta".toList :=
  ⟨['1'], [' ', '-', '2'], ['0', '0', '3'], "beta".toList, by decide +kernel,
    ⟨[], [], ['1'], rfl, by simp, by simp, by simp, by decide⟩,
    ⟨[' '], ['-'], ['2'], rfl, by decide, by simp, by simp, by decide⟩,
    ⟨[], [], ['0', '0', '3'], rfl, by simp, by simp, by simp, by decide⟩⟩

example : ShortNumbers ['v', '1', '2', '.', 'x'] := by
  intro l d r h _
  have := congrArg List.length h
  simp at this
  omega

end SV
