import Verif.Model.Api
/-!
cmd/jpath/jpath.go: the command.  Decoding of input and encoding of output are parameters.
-/
namespace JP

/-- One attempt of the decoder on an input: a value, or an error other than end of input.
`pos` is what error messages name: the input offset (jpath.go:75) or the line number (jpath.go:99). -/
structure Item where
  pos : Nat
  val : Option V

/-- What can stop the processing of an input: jpath.go:81, 85, 89; 103, 107, 111; and 115, which names no
value. -/
inductive CmdErr where
  | decode (pos : Nat)
  | eval (pos : Nat) (e : RErr)
  | encode (pos : Nat)
  | read

/-- `dropCR` of package bufio. -/
def dropCR (line : Bytes) : Bytes := if line.getLast? = some 13 then line.dropLast else line

/-- The loop of `bufio.Scanner` with `bufio.ScanLines`: `cur` is the current line so far (last byte first) and
`n` its length.  Besides the lines: whether the scan ended with `bufio.ErrTooLong`, which it does as soon as
`max` bytes hold no newline. -/
def scanLinesGo (max : Nat) (cur : Bytes) (n : Nat) : Bytes → List Bytes × Bool
  | [] => if n = 0 then ([], false) else ([dropCR cur.reverse], false)
  | c :: cs =>
    if c = 10 then
      let (ls, b) := scanLinesGo max [] 0 cs
      (dropCR cur.reverse :: ls, b)
    else if max ≤ n + 1 then ([], true)
    else scanLinesGo max (c :: cur) (n + 1) cs

/-- jpath.go:97-99: the lines of an input; `bufio.MaxScanTokenSize` is 64 * 1024. -/
def scanLines (text : Bytes) : List Bytes × Bool := scanLinesGo 65536 [] 0 text

/-- An opened input: what its decoder delivers, and whether it ends with a read error (jpath.go:114). -/
structure Source where
  items : List Item
  readError : Bool

/-- The items of lines numbered from `lno`: jpath.go:99-104; `decode` is `json.Unmarshal`. -/
def lineItems (decode : Bytes → Option V) (lno : Nat) : List Bytes → List Item
  | [] => []
  | l :: r => ⟨lno, decode l⟩ :: lineItems decode (lno + 1) r

/-- jpath.go:96-118: an input with the flag -l. -/
def lineSource (decode : Bytes → Option V) (text : Bytes) : Source :=
  let (ls, tooLong) := scanLines text
  ⟨lineItems decode 1 ls, tooLong⟩

/-- Outcome of an input: the result lists written, and how it ended.  `crashed` is a panic in Eval. -/
inductive CmdEnd where
  | done
  | failed (e : CmdErr)
  | crashed

/-- jpath.go:70-93 `readValues` and 96-118 `readLines`, which differ only in how the input is split
into items: decode, evaluate, encode, for each item up to the first error. `eval` is the evaluation of
the compiled path on the `k`-th value of the input; `encodes` says whether `enc.Encode` succeeds on a
result list; a failing encode writes nothing (encoding/json encodes to a buffer first). -/
def readItems (eval : Nat → V → Option (Res RErr GoSlice)) (encodes : List V → Bool) (readError : Bool) :
    (k : Nat) → List Item → Option (List (List V) × CmdEnd)
  | _, [] => some ([], if readError then .failed .read else .done)
  | k, it :: r =>
    match it.val with
    | none => some ([], .failed (.decode it.pos))
    | some root =>
      match eval k root with
      | none => none
      | some (.err e) => some ([], .failed (.eval it.pos e))
      | some (.panic _) | some .stuck => some ([], .crashed)
      | some (.ok res) =>
        if encodes res.elems then
          match readItems eval encodes readError (k + 1) r with
          | none => none
          | some (outs, e) => some (res.elems :: outs, e)
        else some ([], .failed (.encode it.pos))

/-- An input file as `main` sees it (jpath.go:42-58): `none` cannot be opened. -/
abbrev Input := Option Source

/-- How the command ends: exit status 0, or status 1 naming the input and (if it was opened) the
error; or a panic. -/
inductive Exit where
  | ok
  | openFailed (file : Nat)
  | inputFailed (file : Nat) (e : CmdErr)
  | crashed

/-- jpath.go:42-59: the loop over the inputs (a single standard input is a list of one). `k` counts
the evaluations so far. -/
def cmdLoop (eval : Nat → V → Option (Res RErr GoSlice)) (encodes : List V → Bool) :
    (file k : Nat) → List Input → Option (List (List V) × Exit)
  | _, _, [] => some ([], .ok)
  | file, _, none :: _ => some ([], .openFailed file)
  | file, k, some src :: r =>
    match readItems eval encodes src.readError k src.items with
    | none => none
    | some (outs, .failed e) => some (outs, .inputFailed file e)
    | some (outs, .crashed) => some (outs, .crashed)
    | some (outs, .done) =>
      match cmdLoop eval encodes (file + 1) (k + src.items.length) r with
      | none => none
      | some (outs', e) => some (outs ++ outs', e)

/-- jpath.go:18-60 `main`, after the flags: `none` in the second component is a usage or path error
(jpath.go:30-32), before any input is read. -/
def jpathMain (env : Env) (oracles : Nat → Oracle) (encodes : List V → Bool) (expr : Bytes)
    (inputs : List Input) : Option (List (List V) × Option Exit) :=
  match Compile env expr with
  | .ok p =>
    match cmdLoop (fun k v => Eval env (oracles k) p v) encodes 0 0 inputs with
    | none => none
    | some (outs, e) => some (outs, some e)
  | _ => some ([], none)

end JP
