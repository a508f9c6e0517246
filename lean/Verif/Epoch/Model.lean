import Verif.Basic
import Mathlib.Data.Rat.Floor

/-!
# Model of `kep3::epoch`

An epoch is one signed 64-bit number: microseconds since 1970-01-01T00:00:00
(include/kep3/epoch.hpp:63-68 and 255). Here it is an `Int`; every operation whose mathematical
result leaves the 64-bit range has the outcome `Res.ub` (signed overflow).
-/

namespace Kep3.Epoch

/-- include/kep3/epoch.hpp:85 -/
def y2kOffset : Int := 946684800000000
/-- include/kep3/epoch.hpp:91 -/
def jdOffset : Int := 211813444800000000
/-- include/kep3/epoch.hpp:94 -/
def mjdOffset : Int := 4453401600000000

/-- `m` is representable as `std::int64_t` (include/kep3/epoch.hpp:42-63: the representation has at
least 64 bits; exactly 64 are assumed). -/
def fits64 (n : Int) : Prop := -9223372036854775808 ≤ n ∧ n ≤ 9223372036854775807
instance (n : Int) : Decidable (fits64 n) := by unfold fits64; infer_instance

/-- Signed 64-bit result of an arithmetic operation: undefined behaviour on overflow. -/
def chk64 (n : Int) : Res Int := if fits64 n then .ok n else .ub

/-- Default constructor, src/epoch.cpp:29 and include/kep3/epoch.hpp:88, 255 (`m_tp = y2k`). -/
def default : Int := y2kOffset

/-! ## Durations and comparisons -/

/-- `operator+=`, `operator+`: include/kep3/epoch.hpp:182-187, 203-207. The duration is already in
microseconds (`duration_cast<microseconds>` of an integral microsecond count is the identity). -/
def add (e d : Int) : Res Int := chk64 (e + d)
/-- `operator-=`, `operator-(duration)`: include/kep3/epoch.hpp:189-194, 209-213. -/
def sub (e d : Int) : Res Int := chk64 (e - d)
/-- `operator-(epoch, epoch)`: src/epoch.cpp:250-253. -/
def diff (e f : Int) : Res Int := chk64 (e - f)
/-- `operator<` … `operator!=`: src/epoch.cpp:176-204 (comparison of the two 64-bit counts). -/
def lt (e f : Int) : Bool := decide (e < f)
/-- src/epoch.cpp:176-179 -/
def gt (e f : Int) : Bool := decide (e > f)
/-- src/epoch.cpp:191-194 -/
def le (e f : Int) : Bool := decide (e ≤ f)
/-- src/epoch.cpp:186-189 -/
def ge (e f : Int) : Bool := decide (e ≥ f)
/-- src/epoch.cpp:196-199 -/
def eq (e f : Int) : Bool := decide (e = f)
/-- src/epoch.cpp:201-204 -/
def ne (e f : Int) : Bool := decide (e ≠ f)

/-- `epoch(std::chrono::duration)`: include/kep3/epoch.hpp:125-129. The duration initialises the
time point directly, i.e. it counts from the Unix epoch. -/
def ofDuration (d : Int) : Res Int := chk64 d

/-- `save` / `load`: include/kep3/epoch.hpp:235-247 (the archive holds the 64-bit count). -/
def save (e : Int) : Int := e
/-- include/kep3/epoch.hpp:241-247 -/
def load (c : Int) : Int := c

/-! ## Julian dates

Day numbers are rationals (every finite double is one); the double rounding of the product with
86400·10^6 and of the final division is not modelled. -/

/-- include/kep3/epoch.hpp:104 -/
inductive JulianType | MJD2000 | MJD | JD
  deriving DecidableEq, Repr

/-- Conversion of a floating-point number to an integer: truncation toward zero. -/
def trunc (q : ℚ) : Int := if 0 ≤ q then ⌊q⌋ else ⌈q⌉

/-- `tp_from_days`: src/epoch.cpp:211-214. `duration_cast` truncates; a value outside the 64-bit
range is undefined behaviour. -/
def tpFromDays (days : ℚ) : Res Int := do
  let us ← chk64 (trunc (days * 86400000000))
  chk64 (y2kOffset + us)

/-- `epoch(double, julian_type)`: src/epoch.cpp:38-55. -/
def ofJulian (days : ℚ) : JulianType → Res Int
  | .MJD2000 => tpFromDays days
  | .MJD => do let t ← tpFromDays days; chk64 (t - mjdOffset)
  | .JD => do let t ← tpFromDays days; chk64 (t - jdOffset)

/-- `mjd2000()`: include/kep3/epoch.hpp:158-161. -/
def mjd2000 (e : Int) : ℚ := ((e - y2kOffset : Int) : ℚ) / 86400000000
/-- `mjd()`: include/kep3/epoch.hpp:149-153. -/
def mjd (e : Int) : ℚ := ((e - y2kOffset + mjdOffset : Int) : ℚ) / 86400000000
/-- `jd()`: include/kep3/epoch.hpp:140-144. -/
def jd (e : Int) : ℚ := ((e - y2kOffset + jdOffset : Int) : ℚ) / 86400000000

/-- Reading in the type used for construction. -/
def julian (e : Int) : JulianType → ℚ
  | .MJD2000 => mjd2000 e
  | .MJD => mjd e
  | .JD => jd e

/-! ## Calendar -/

/-- `std::chrono::sys_days{y/m/d}` for an existing date ([time.cal.ymd.members]); used by
src/epoch.cpp:156. Written as the usual closed formula of the standard library implementations:
years start in March, eras of 400 years. -/
def daysFromCivil (y m d : Int) : Int :=
  let y' := if m ≤ 2 then y - 1 else y
  let era := y' / 400
  let yoe := y' - era * 400
  let mp := if m ≤ 2 then m + 9 else m - 3
  let doy := (153 * mp + 2) / 5 + (d - 1)
  era * 146097 + (yoe * 365 + yoe / 4 - yoe / 100 + doy) - 719468

/-- The `short` held by `std::chrono::year(y)`: src/epoch.cpp:131. The value is unspecified by the
standard when `y` does not fit; the three mainstream standard libraries truncate. -/
def narrowYear (y : Int) : Int := (y + 32768) % 65536 - 32768
/-- The `unsigned char` held by `std::chrono::month(m)` / `day(d)`: src/epoch.cpp:137, 143 (same
remark). -/
def narrowByte (n : Nat) : Nat := n % 256

/-- `make_tp`: src/epoch.cpp:127-174. `year::ok` is "not -32768", `month::ok` is 1..12, `day::ok` is
1..31. A day beyond the end of the month is carried over: for such a date `sys_days` is the first of
the month plus `d - 1` days ([time.cal.ymd.members]/18). The hour, minute, … arguments are `int32`. -/
def makeTp (y : Int) (mon d : Nat) (h mi s ms us : Int) : Res Int :=
  let cy := narrowYear y
  let cm := narrowByte mon
  let cd := narrowByte d
  if cy = -32768 then .err .invalidArgument
  else if ¬ (1 ≤ cm ∧ cm ≤ 12) then .err .invalidArgument
  else if ¬ (1 ≤ cd ∧ cd ≤ 31) then .err .invalidArgument
  else do
    let tp ← chk64 ((daysFromCivil cy cm 1 + ((cd : Int) - 1)) * 86400000000)
    let hh ← chk64 (h * 3600000000)
    let tp ← chk64 (tp + hh)
    let mm ← chk64 (mi * 60000000)
    let tp ← chk64 (tp + mm)
    let ss ← chk64 (s * 1000000)
    let tp ← chk64 (tp + ss)
    let mss ← chk64 (ms * 1000)
    let tp ← chk64 (tp + mss)
    chk64 (tp + us)

/-! ## Printing -/

/-- Civil date of a day count (`gmtime`, called by `fmt` at src/epoch.cpp:228): split into 400-year
eras, centuries, 4-year cycles and years starting in March. -/
def civilFromDays (n : Int) : Int × Int × Int :=
  let z := n + 719468
  let era := z / 146097
  let doe := z - era * 146097
  let c := min (doe / 36524) 3
  let doc := doe - 36524 * c
  let q := doc / 1461
  let doq := doc - 1461 * q
  let a := min (doq / 365) 3
  let yoe := 100 * c + 4 * q + a
  let doy := doq - 365 * a
  let mp := (5 * doy + 2) / 153
  let d := doy - (153 * mp + 2) / 5 + 1
  let m := if mp < 10 then mp + 3 else mp - 9
  let y := yoe + era * 400
  (if m ≤ 2 then y + 1 else y, m, d)

/-- Decimal digit character. -/
def digitChar (n : Nat) : Char := Char.ofNat (48 + n)

/-- Zero-padded decimal field of exactly `w` digits (the last `w` digits of `n`). -/
def pad : Nat → Nat → List Char
  | 0, _ => []
  | w + 1, n => pad w (n / 10) ++ [digitChar (n % 10)]

/-- `as_utc_string`: src/epoch.cpp:223-234, `fmt` format `{:%FT%T}` of a microsecond time point:
`YYYY-MM-DDTHH:MM:SS.ffffff`. Faithful for years 0..9999 (outside, `fmt` uses a sign or more digits;
here `toNat` and truncation to four digits). -/
def asUtcString (t : Int) : List Char :=
  let days := t / 86400000000
  let r := (t % 86400000000).toNat
  let (y, m, d) := civilFromDays days
  pad 4 y.toNat ++ ['-'] ++ pad 2 m.toNat ++ ['-'] ++ pad 2 d.toNat ++ ['T']
    ++ pad 2 (r / 3600000000) ++ [':'] ++ pad 2 (r / 60000000 % 60) ++ [':']
    ++ pad 2 (r / 1000000 % 60) ++ ['.'] ++ pad 6 (r % 1000000)

/-! ## Parsing -/

/-- `isspace` in the "C" locale, as used by `std::stoi`. -/
def isSpace (c : Char) : Bool :=
  c = ' ' || c = '\t' || c = '\n' || c = '\r' || c = Char.ofNat 11 || c = Char.ofNat 12
def isDigit (c : Char) : Bool := decide (48 ≤ c.toNat ∧ c.toNat ≤ 57)
def digitVal (c : Char) : Nat := c.toNat - 48

/-- Value of a digit string. -/
def natOfDigits (ds : List Char) : Nat := ds.foldl (fun acc c => acc * 10 + digitVal c) 0

/-- Drop one leading sign character (part of `std::stoi`). -/
def skipSign (s : List Char) : List Char :=
  if s.head? == some '-' || s.head? == some '+' then s.tail else s

/-- `std::stoi` (called at src/epoch.cpp:95-107): leading blanks, optional sign, longest digit run,
anything after it ignored; `invalid_argument` without digits, `out_of_range` beyond 32 bits. -/
def stoi (s : List Char) : Res Int :=
  let s := s.dropWhile isSpace
  let neg : Bool := s.head? == some '-'
  let ds := (skipSign s).takeWhile isDigit
  if ds = [] then .err .invalidArgument
  else
    let v : Int := if neg then - (natOfDigits ds : Int) else natOfDigits ds
    if -2147483648 ≤ v ∧ v ≤ 2147483647 then .ok v else .err .outOfRange

/-- `boost::numeric_cast<unsigned>(int)`: throws on negative values (src/epoch.cpp:96, 98). -/
def toUnsigned (v : Int) : Res Nat := if v < 0 then .err .badNumericCast else .ok v.toNat

/-- `std::string::substr(pos, n)` for `pos ≤ size` (src/epoch.cpp:95-106). -/
def substr (s : List Char) (pos n : Nat) : List Char := (s.drop pos).take n

/-- The loop at src/epoch.cpp:108-110: `k` multiplications by ten in 32-bit arithmetic. -/
def scale10 : Nat → Int → Res Int
  | 0, v => .ok v
  | k + 1, v =>
    let w := v * 10
    if -2147483648 ≤ w ∧ w ≤ 2147483647 then scale10 k w else .ub

/-- src/epoch.cpp:85 -/
def allowedLengths : List Nat := [7, 10, 13, 16, 19, 21, 22, 23, 24, 25, 26]

/-- `epoch(const std::string &, string_format)`: src/epoch.cpp:75-117, for the only existing format
`ISO` (the enumeration has one value, include/kep3/epoch.hpp:105). The nested `if`s are written
side by side: each condition implies the enclosing one. -/
def ofString (s : List Char) : Res Int :=
  if ¬ (s.length ∈ allowedLengths) then .err .logicError
  else do
    let y ← stoi (substr s 0 4)
    let mon ← (do let v ← stoi (substr s 5 2); toUnsigned v)
    let d ← (if 10 ≤ s.length then (do let v ← stoi (substr s 8 2); toUnsigned v) else .ok 1)
    let h ← (if 13 ≤ s.length then stoi (substr s 11 2) else .ok 0)
    let mi ← (if 16 ≤ s.length then stoi (substr s 14 2) else .ok 0)
    let sec ← (if 19 ≤ s.length then stoi (substr s 17 2) else .ok 0)
    let us ← (if 21 ≤ s.length then
        (do let v ← stoi (s.drop 20); scale10 (6 - (s.drop 20).length) v)
      else .ok 0)
    makeTp y mon d h mi sec 0 us

end Kep3.Epoch
