/-!
Basic types shared by the model: Go strings as byte lists, results of Go functions that can
return, return an error, or panic, and the few standard-library string functions the code uses.
-/
namespace JP

/-- A Go `string`: an arbitrary sequence of bytes (not necessarily valid UTF-8). -/
abbrev Bytes := List UInt8

/-- `b! "text"`: the UTF-8 bytes of a string literal, expanded to an explicit list when the file is
elaborated (so that the kernel never has to evaluate `String` functions). -/
macro "b!" s:str : term => do
  let bs := s.getString.toUTF8.toList
  let es : Array (Lean.TSyntax `term) := (bs.map fun b => Lean.Syntax.mkNumLit (toString b.toNat)).toArray
  `(([$es,*] : List UInt8))

/-- `c! 'x'`: the byte of an ASCII character literal. -/
macro "c!" c:char : term => do
  let n : Lean.TSyntax `term := Lean.Syntax.mkNumLit (toString c.getChar.toNat)
  `(($n : UInt8))

/-- The ways a Go call can end: a value, a returned `error`, a run-time panic.
`stuck` is not a Go behaviour: it marks that the fuel of a model function was exhausted, and is
proved unreachable for every entry point. -/
inductive Res (ε α : Type) where
  | ok (a : α)
  | err (e : ε)
  | panic (msg : String)
  | stuck
  deriving Repr, DecidableEq

namespace Res
variable {ε α β : Type}
/-- Sequencing: anything but `ok` stops. -/
@[inline] def bind (x : Res ε α) (f : α → Res ε β) : Res ε β :=
  match x with
  | .ok a => f a
  | .err e => .err e
  | .panic m => .panic m
  | .stuck => .stuck
instance : Monad (Res ε) where
  pure := .ok
  bind := Res.bind
/-- Apply a function to a successful result. -/
@[inline] def map' (f : α → β) (x : Res ε α) : Res ε β :=
  match x with
  | .ok a => .ok (f a)
  | .err e => .err e
  | .panic m => .panic m
  | .stuck => .stuck
@[simp] theorem bind_ok (a : α) (f : α → Res ε β) : (Res.ok a >>= f) = f a := rfl
@[simp] theorem bind_err (e : ε) (f : α → Res ε β) : (Res.err e >>= f) = .err e := rfl
@[simp] theorem bind_panic (m : String) (f : α → Res ε β) : (Res.panic m >>= f) = .panic m := rfl
@[simp] theorem bind_stuck (f : α → Res ε β) : ((Res.stuck : Res ε α) >>= f) = .stuck := rfl
@[simp] theorem pure_eq (a : α) : (pure a : Res ε α) = .ok a := rfl
end Res

/-- Byte-wise lexicographic `<` on strings: Go's `<` operator on `string`. -/
def bytesLt : Bytes → Bytes → Bool
  | [], [] => false
  | [], _ :: _ => true
  | _ :: _, [] => false
  | a :: as, b :: bs => if a < b then true else if b < a then false else bytesLt as bs

/-- `strings.HasPrefix(s, p)`. -/
def hasPrefix : (s p : Bytes) → Bool
  | _, [] => true
  | [], _ :: _ => false
  | a :: as, b :: bs => a == b && hasPrefix as bs

/-- `strings.HasSuffix(s, p)`. -/
def hasSuffix (s p : Bytes) : Bool :=
  p.length ≤ s.length && s.drop (s.length - p.length) == p

/-- `strings.Contains(s, p)`. -/
def containsSub : (s p : Bytes) → Bool
  | s, [] => hasPrefix s []
  | [], _ :: _ => false
  | a :: as, p@(_ :: _) => hasPrefix (a :: as) p || containsSub as p

/-- Decimal digits of a natural number, most significant first; `fuel` bounds the number of digits. -/
def natDigits : (fuel n : Nat) → Bytes
  | 0, _ => []
  | f + 1, n =>
    if n < 10 then [UInt8.ofNat (48 + n)]
    else natDigits f (n / 10) ++ [UInt8.ofNat (48 + n % 10)]

/-- `fmt.Sprint` of an unsigned integer. -/
def natToBytes (n : Nat) : Bytes := natDigits (n + 1) n

/-- `fmt.Sprint` of a signed integer. -/
def intToBytes (n : Int) : Bytes :=
  if n < 0 then c! '-' :: natToBytes n.natAbs else natToBytes n.natAbs

/-- ASCII decimal digit: paths/lex.go:287-289 `isDigit`. -/
def isDigit (c : UInt8) : Bool := 48 ≤ c && c ≤ 57

/-- Value of a digit string, or `none` if some byte is not a digit or the string is empty. -/
def digitsVal : Bytes → Option Nat
  | [] => none
  | bs => bs.foldl (fun acc c => match acc with
      | none => none
      | some n => if isDigit c then some (n * 10 + (c.toNat - 48)) else none) (some 0)

/-- `strconv.ParseInt(s, 10, 64)`; `none` stands for either of its errors (syntax, range).
Standard library: an optional `+` or `-`, then one or more decimal digits, range-checked. -/
def parseInt (s : Bytes) : Option Int64 :=
  match s with
  | [] => none
  | 45 :: ds => match digitsVal ds with
    | none => none
    | some n => if n ≤ 2^63 then some (Int64.ofInt (-(n : Int))) else none
  | 43 :: ds => match digitsVal ds with
    | none => none
    | some n => if n < 2^63 then some (Int64.ofInt n) else none
  | ds => match digitsVal ds with
    | none => none
    | some n => if n < 2^63 then some (Int64.ofInt n) else none

/-- Is `c` a UTF-8 continuation byte 0x80..0xBF? -/
def isCont (c : UInt8) : Bool := 0x80 ≤ c && c ≤ 0xBF

/-- Length in bytes of the first rune of a non-empty string as decoded by `unicode/utf8`
(an invalid or truncated sequence decodes as one byte). -/
def runeLen (s : Bytes) : Nat :=
  match s with
  | [] => 0
  | a :: r =>
    if a < 0x80 then 1
    else if 0xC2 ≤ a && a ≤ 0xDF then
      match r with
      | b :: _ => if isCont b then 2 else 1
      | _ => 1
    else if 0xE0 ≤ a && a ≤ 0xEF then
      match r with
      | b :: c :: _ =>
        let lo : UInt8 := if a == 0xE0 then 0xA0 else 0x80
        let hi : UInt8 := if a == 0xED then 0x9F else 0xBF
        if lo ≤ b && b ≤ hi && isCont c then 3 else 1
      | _ => 1
    else if 0xF0 ≤ a && a ≤ 0xF4 then
      match r with
      | b :: c :: d :: _ =>
        let lo : UInt8 := if a == 0xF0 then 0x90 else 0x80
        let hi : UInt8 := if a == 0xF4 then 0x8F else 0xBF
        if lo ≤ b && b ≤ hi && isCont c && isCont d then 4 else 1
      | _ => 1
    else 1

/-- Rune count with fuel (at least one byte is consumed per rune). -/
def runeCountGo : (fuel : Nat) → Bytes → Nat
  | 0, _ => 0
  | _ + 1, [] => 0
  | f + 1, s@(_ :: _) => 1 + runeCountGo f (s.drop (runeLen s))

/-- `utf8.RuneCountInString`. -/
def runeCount (s : Bytes) : Nat := runeCountGo s.length s

/-- UTF-8 encoding of a rune as written by `strings.Builder.WriteRune`:
surrogates and out-of-range values are written as U+FFFD. -/
def encodeRune (r : Nat) : Bytes :=
  if r < 0x80 then [UInt8.ofNat r]
  else if r < 0x800 then [UInt8.ofNat (0xC0 + r / 64), UInt8.ofNat (0x80 + r % 64)]
  else if (0xD800 ≤ r ∧ r ≤ 0xDFFF) ∨ 0x10FFFF < r then [0xEF, 0xBF, 0xBD]
  else if r < 0x10000 then
    [UInt8.ofNat (0xE0 + r / 4096), UInt8.ofNat (0x80 + r / 64 % 64), UInt8.ofNat (0x80 + r % 64)]
  else
    [UInt8.ofNat (0xF0 + r / 262144), UInt8.ofNat (0x80 + r / 4096 % 64),
     UInt8.ofNat (0x80 + r / 64 % 64), UInt8.ofNat (0x80 + r % 64)]

end JP
