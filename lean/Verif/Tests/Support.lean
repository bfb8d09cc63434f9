import Verif.Model.Cmd
/-!
Support for the tests in this directory: a concrete environment (number syntax, shortest float
formatting, a small regular expression engine), renderings of errors and programs, equality of values.
Nothing here is used by a property theorem, except `testEnv` as a witness in examples.
-/
namespace JP.Test
open JP

/-- Text to bytes. -/
def tx (s : String) : Bytes := s.toUTF8.toList
/-- Bytes to text. -/
def st (b : Bytes) : String := String.fromUTF8! ⟨b.toArray⟩

/-- Digits and the rest. -/
def spanDigits (s : Bytes) : Bytes × Bytes := s.span isDigit

/-- Decimal syntax of `strconv.ParseFloat` (no hexadecimal, underscores, inf or nan). -/
def parseDec (s : Bytes) : Option F64 :=
  let (neg, s) := match s with
    | 45 :: r => (true, r)
    | 43 :: r => (false, r)
    | r => (false, r)
  let (ip, r) := spanDigits s
  let (fp, r) := match r with
    | 46 :: r => spanDigits r
    | r => ([], r)
  if ip.isEmpty && fp.isEmpty then none else
  let m := (digitsVal (ip ++ fp)).getD 0
  let fin (e : Int) : Option F64 :=
    let e := e - fp.length
    let f := if 0 ≤ e then F64.round neg (m * 10 ^ e.toNat) 1 else F64.round neg m (10 ^ (-e).toNat)
    if f.isInf then none else some f
  match r with
  | [] => fin 0
  | c :: r =>
    if c == 101 || c == 69 then
      let (en, r) := match r with
        | 45 :: r => (true, r)
        | 43 :: r => (false, r)
        | r => (false, r)
      match digitsVal r with
      | some e => fin (if en then -(e : Int) else e)
      | none => none
    else none

/-! A small regular expression engine: literals, `.`, `\s`, `\d`, `\w`, groups, `|`, `* + ?`, `^`, `$`. -/
inductive Rx where
  | eps | chr (p : UInt8 → Bool) | seq (a b : Rx) | alt (a b : Rx) | star (a : Rx) | bol | eol

mutual
partial def rxAlt (s : Bytes) : Option (Rx × Bytes) := do
  let (a, s) ← rxSeq s
  match s with
  | 124 :: r => do
    let (b, s) ← rxAlt r
    some (.alt a b, s)
  | s => some (a, s)
partial def rxSeq (s : Bytes) : Option (Rx × Bytes) := do
  match s with
  | [] => some (.eps, s)
  | c :: _ =>
    if c == 124 || c == 41 then some (.eps, s)
    else
      let (a, s) ← rxAtom s
      let (a, s) := match s with
        | 42 :: 63 :: r => (Rx.star a, r)
        | 42 :: r => (Rx.star a, r)
        | 43 :: r => (Rx.seq a (.star a), r)
        | 63 :: r => (Rx.alt a .eps, r)
        | s => (a, s)
      let (b, s) ← rxSeq s
      some (.seq a b, s)
partial def rxAtom (s : Bytes) : Option (Rx × Bytes) :=
  match s with
  | [] => none
  | 40 :: r => do
    let (a, s) ← rxAlt r
    match s with
    | 41 :: r => some (a, r)
    | _ => none
  | 46 :: r => some (.chr (· != 10), r)
  | 94 :: r => some (.bol, r)
  | 36 :: r => some (.eol, r)
  | 92 :: c :: r =>
    if c == 115 then some (.chr isSpace, r)
    else if c == 100 then some (.chr isDigit, r)
    else if c == 119 then some (.chr isAlphanumeric, r)
    else some (.chr (· == c), r)
  | 92 :: [] => none
  | 42 :: _ | 43 :: _ | 63 :: _ => none
  | c :: r => some (.chr (· == c), r)
end

def rxParse (s : Bytes) : Option Rx := match rxAlt s with
  | some (r, []) => some r
  | _ => none

partial def rxMatch (r : Rx) (start : Bool) (s : Bytes) (k : Bool → Bytes → Option Bytes) : Option Bytes :=
  match r with
  | .eps => k start s
  | .bol => if start then k start s else none
  | .eol => if s.isEmpty then k start s else none
  | .chr p => match s with
    | c :: t => if p c then k false t else none
    | [] => none
  | .seq a b => rxMatch a start s fun st t => rxMatch b st t k
  | .alt a b => (rxMatch a start s k).orElse fun _ => rxMatch b start s k
  | .star a => (rxMatch a start s fun st t => if t.length == s.length then none else rxMatch (.star a) st t k).orElse
      fun _ => k start s

partial def rxFind (r : Rx) (start : Bool) (s : Bytes) : Option (Nat × Bytes) :=
  match rxMatch r start s fun _ t => some t with
  | some t => some (0, t)
  | none => match s with
    | [] => none
    | _ :: t => (rxFind r false t).map fun (n, u) => (n + 1, u)

partial def rxSplit (r : Rx) (s : Bytes) : List Bytes :=
  match rxFind r false s with
  | some (n, t) => if t.length == s.length then [s] else s.take n :: rxSplit r t
  | none => [s]

/-- The environment used by the tests. -/
def testEnv : Env where
  parseOther _ := none
  reValid p := (rxParse p).isSome
  reMatch p s := match rxParse p with
    | some r => (rxFind r true s).isSome
    | none => false
  reSplit p s := match rxParse p with
    | some r => rxSplit r s
    | none => []
  f2iOut _ := Int64.minValue
  isPrint _ := true
  reError p := tx "error parsing regexp: unexpected ): `" ++ p ++ tx "`"
  numError _ := tx "?"
  goOpaque _ := tx "?"

/-- What testdata/t1 records for a path: the program's text or `!error`. -/
def t1 (s : String) : String :=
  match parsePath testEnv (tx s) with
  | .ok p => match compile p with
    | .ok prog => match prog.text testEnv with
      | some t => st t
      | none => "PANIC"
    | _ => "!!"
  | .err e => "!" ++ st (e.text testEnv)
  | .panic m => "PANIC " ++ m
  | .stuck => "STUCK"

mutual
/-- Structural equality of values. -/
partial def veq : V → V → Bool
  | .null, .null => true
  | .bool a, .bool b => a == b
  | .gint a, .gint b => a == b
  | .int a, .int b => a == b
  | .float a, .float b => a.feq b
  | .str a, .str b => a == b
  | .num a, .num b => a == b
  | .arr a, .arr b => a.length == b.length && (a.zip b).all fun (x, y) => veq x y
  | .obj a, .obj b => a.length == b.length && a.all fun (k, x) => match lookup b k with
    | some y => veq x y
    | none => false
  | _, _ => false
end

/-- Same values up to order. -/
def sameBag : List V → List V → Bool
  | [], b => b.isEmpty
  | x :: a, b => match b.findIdx? (veq x) with
    | some i => sameBag a (b.eraseIdx i)
    | none => false

/-- Evaluate a path on a document. -/
def evalT (s : String) (doc : V) : Option (List V) :=
  match Compile testEnv (tx s) with
  | .ok p => match Eval testEnv .id p doc with
    | some (.ok (some vs)) => some vs
    | _ => none
  | _ => none

/-- Does a path give exactly these results (up to order)? -/
def gives (s : String) (doc : V) (expect : List V) : Bool :=
  match evalT s doc with
  | some vs => sameBag vs expect
  | none => false

/-- Is a path rejected by `Compile`? -/
def rejected (s : String) : Bool :=
  match Compile testEnv (tx s) with
  | .err _ => true
  | _ => false

end JP.Test
