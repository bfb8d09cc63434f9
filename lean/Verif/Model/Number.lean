import Verif.Model.F64
/-!
Texts of decimal numbers, as the standard library's `strconv.ParseFloat(s, 64)` reads them.

Its documentation: "If s is well-formed and near a valid floating-point number, ParseFloat returns the nearest
floating-point number rounded using IEEE754 unbiased rounding."; beyond the greatest it returns an error.
The other texts it accepts (hexadecimal, with underscores, infinity, NaN) are left to a parameter: see
`Env.parseOther`.
-/
namespace JP

/-- An optional sign: is it negative, and the text after it. -/
def signed : Bytes → Bool × Bytes
  | 45 :: r => (true, r)
  | 43 :: r => (false, r)
  | r => (false, r)

/-- The number denoted by digits. -/
def digitsNat (ds : Bytes) : Nat := ds.foldl (fun n c => n * 10 + (c.toNat - 48)) 0

/-- The exponent denoted by digits: strconv ignores further digits once it exceeds 9999. -/
def digitsExp (ds : Bytes) : Nat := ds.foldl (fun e c => if e < 10000 then e * 10 + (c.toNat - 48) else e) 0

/-- What may follow the digits of a decimal number: nothing, or an exponent. -/
def exponent? : Bytes → Option Int
  | [] => some 0
  | c :: r =>
    if c == c! 'e' || c == c! 'E' then
      let (neg, ds) := signed r
      if ds.isEmpty || !ds.all isDigit then none
      else some (if neg then -(digitsExp ds : Int) else digitsExp ds)
    else none

/-- A decimal number without sign: `some (m, e)` for `m * 10^e`. -/
def decimal? (s : Bytes) : Option (Nat × Int) :=
  let ds := s.takeWhile isDigit
  let r := s.dropWhile isDigit
  let (fs, r) := match r with
    | 46 :: r => (r.takeWhile isDigit, r.dropWhile isDigit)
    | r => ([], r)
  if ds.isEmpty && fs.isEmpty then none
  else match exponent? r with
    | none => none
    | some e => some (digitsNat (ds ++ fs), e - fs.length)

/-- The float nearest to `± m * 10^e`; `none` if that is infinite. -/
def ofDecimal (neg : Bool) (m : Nat) (e : Int) : Option F64 :=
  let f := if 0 ≤ e then F64.round neg (m * 10 ^ e.toNat) 1 else F64.round neg m (10 ^ (-e).toNat)
  if f.isInf then none else some f

end JP
