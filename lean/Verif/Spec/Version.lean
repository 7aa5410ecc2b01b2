import Verif.Model.Version
/-! Specification of version comparison. -/
namespace SV.Spec

/-- A version number. -/
structure Ver where
  major : Nat
  minor : Nat
  patch : Nat
deriving DecidableEq

/-- Lexicographic order. -/
def Ver.lt (x y : Ver) : Prop :=
  x.major < y.major ∨ (x.major = y.major ∧ (x.minor < y.minor ∨ (x.minor = y.minor ∧ x.patch < y.patch)))

/-- The numbers fit in an `int`. -/
def Ver.small (x : Ver) : Prop := x.major < 2 ^ 31 ∧ x.minor < 2 ^ 31 ∧ x.patch < 2 ^ 31

/-- The string of a version. -/
def Ver.str (x : Ver) : List Char := versionStr x.major x.minor x.patch

/-- A decimal integer with optional leading white space and sign. -/
def IsInt (s : List Char) : Prop :=
  ∃ ws sign ds, s = ws ++ sign ++ ds ∧ (∀ c ∈ ws, isWs c) ∧ (sign = [] ∨ sign = ['-'] ∨ sign = ['+']) ∧ ds ≠ [] ∧
    ∀ c ∈ ds, isDig c

/-- Strings that start with `v`, an integer, a dot, an integer, a dot and an integer. -/
def WellFormed (s : List Char) : Prop :=
  ∃ a b c rest, s = 'v' :: (a ++ '.' :: (b ++ '.' :: (c ++ rest))) ∧ IsInt a ∧ IsInt b ∧ IsInt c

/-- No run of more than nine digits. -/
def ShortNumbers (s : List Char) : Prop :=
  ∀ l d r, s = l ++ d ++ r → (∀ c ∈ d, isDig c) → d.length ≤ 9

end SV.Spec
