import Verif.Model.Out
/-!
Version strings, `/repo/lib/src/signed_video_h26x_common.c` 190-208 and 1269-1292.
-/
namespace SV

/-- White space skipped by `%d` (`isspace` in the C locale). -/
def isWs (c : Char) : Bool := c = ' ' || c = '\t' || c = '\n' || c = '\x0b' || c = '\x0c' || c = '\r'

/-- Decimal digit. -/
def isDig (c : Char) : Bool := '0' ≤ c && c ≤ '9'

/-- Value of a sequence of decimal digits. -/
def digitsVal (d : List Char) : Nat := d.foldl (fun v c => 10 * v + (c.toNat - '0'.toNat)) 0

/-- Skip a sign. -/
def skipSign : List Char → List Char
  | [] => []
  | c :: r => if c = '-' ∨ c = '+' then r else c :: r

/-- The conversion `%d` of `sscanf` into an `int`: `none` for a matching failure, otherwise the value and the rest of
the input. The C standard leaves a value that does not fit undefined (C11 7.21.6.2, 10). -/
def scanInt (s : List Char) : Out (Option (Int × List Char)) :=
  let s := s.dropWhile isWs
  let neg := s.head? = some '-'
  let s := skipSign s
  let d := s.takeWhile isDig
  let v : Int := if neg then - (digitsVal d : Int) else digitsVal d
  if d = [] then .ok none
  else if v < -2147483648 ∨ 2147483647 < v then .ub .intOverflow
  else .ok (some (v, s.dropWhile isDig))

/-- A literal character in the format of `sscanf`. -/
def scanChar (c : Char) : List Char → Option (List Char)
  | [] => none
  | d :: r => if d = c then some r else none

/-- `version_str_to_bytes` (`signed_video_h26x_common.c` 190-200), `sscanf(str, "v%d.%d.%d", …)`; `none` if not all
three elements are read. -/
def parseVersion (s : List Char) : Out (Option (List Int)) :=
  match scanChar 'v' s with
  | none => .ok none
  | some s => do
    match ← scanInt s with
    | none => pure none
    | some (a, s) =>
      match scanChar '.' s with
      | none => pure none
      | some s =>
        match ← scanInt s with
        | none => pure none
        | some (b, s) =>
          match scanChar '.' s with
          | none => pure none
          | some s =>
            match ← scanInt s with
            | none => pure none
            | some (c, _) => pure (some [a, b, c])

/-- Loop of `signed_video_compare_versions` (`signed_video_h26x_common.c` 1279-1284), with `int` subtraction. -/
def versionDiff : List Int → List Int → Out Int
  | a :: as, b :: bs =>
    if a - b < -2147483648 ∨ 2147483647 < a - b then .ub .intOverflow
    else if a - b = 0 then versionDiff as bs
    else .ok (a - b)
  | _, _ => .ok 0

/-- `signed_video_compare_versions` (`signed_video_h26x_common.c` 1269-1292); `none` is a NULL string. -/
def compareVersions (v1 v2 : Option (List Char)) : Out Int :=
  match v1, v2 with
  | some s1, some s2 => do
    match ← parseVersion s1 with
    | none => pure (-1)
    | some a1 =>
      match ← parseVersion s2 with
      | none => pure (-1)
      | some a2 => do
        let r ← versionDiff a1 a2
        pure (if r = 0 then 0 else if r > 0 then 1 else 2)
  | _, _ => .ok (-1)

/-- Decimal digits of a number, as printed by `%d`. -/
def decimal (n : Nat) : List Char :=
  if n < 10 then [Char.ofNat ('0'.toNat + n)]
  else decimal (n / 10) ++ [Char.ofNat ('0'.toNat + n % 10)]
termination_by n
decreasing_by omega

/-- `bytes_to_version_str` (`signed_video_h26x_common.c` 202-208) for numbers that are not negative. -/
def versionStr (a b c : Nat) : List Char := 'v' :: (decimal a ++ '.' :: (decimal b ++ '.' :: decimal c))

end SV
