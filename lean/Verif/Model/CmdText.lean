import Verif.Model.Cmd
import Verif.Model.RunText
/-!
What jpath writes to standard error, and its exit status: cmd/jpath/jpath.go.
-/
namespace JP

/-- Messages of errors that come from other packages. -/
structure CmdMsgs where
  /-- of encoding/json for the value at a position -/
  decode : Nat → Bytes
  encode : Nat → Bytes
  /-- of bufio -/
  read : Bytes
  /-- of `os.Open`, for each file -/
  opening : Nat → Bytes

/-- The position in a message: the input offset (jpath.go:81-89) or, with the flag -l, the number of the line
(jpath.go:103-111). -/
def posText (byLine : Bool) (pos : Nat) : Bytes := if byLine then natToBytes pos else c! '#' :: natToBytes pos

/-- jpath.go:81, 85, 89; 103, 107, 111, 115. -/
def CmdErr.text (env : Env) (m : CmdMsgs) (byLine : Bool) : CmdErr → Bytes
  | .decode pos => posText byLine pos ++ b! ": decoding JSON: " ++ m.decode pos
  | .eval pos e => posText byLine pos ++ b! ": evaluation error: " ++ e.text env
  | .encode pos => posText byLine pos ++ b! ": encoding results: " ++ m.encode pos
  | .read => b! "read error: " ++ m.read

/-- jpath.go:120-125 `errorf`. -/
def errorf (argv0 text : Bytes) : Bytes := argv0 ++ b! ": " ++ (text ++ [10])

/-- How the process ends: what it has written to standard error (unless that is the trace of a panic) and its status. -/
structure Ended where
  stderr : Option Bytes
  status : Nat

/-- jpath.go:42-59: the end of the loop; `files` is empty if standard input was read. A panic ends a Go program
with status 2. -/
def Exit.ended (env : Env) (m : CmdMsgs) (byLine : Bool) (argv0 : Bytes) (files : List Bytes) : Exit → Ended
  | .ok => ⟨some [], 0⟩
  | .openFailed f => ⟨some (errorf argv0 (files.getD f [] ++ b! ": cannot open: " ++ m.opening f)), 1⟩
  | .inputFailed f e =>
    ⟨some (errorf argv0 (if files = [] then e.text env m byLine else files.getD f [] ++ c! ':' :: e.text env m byLine)), 1⟩
  | .crashed => ⟨none, 2⟩

/-- jpath.go:18-60 `main`, after the flags are parsed. `inputs` are the files named by the arguments after the
first, or standard input. -/
def jpathRun (env : Env) (oracles : Nat → Oracle) (encodes : List V → Bool) (m : CmdMsgs) (byLine : Bool) (argv0 : Bytes)
    (args : List Bytes) (inputs : List Input) : Option (List (List V) × Ended) :=
  match args with
  | [] => some ([], ⟨some (b! "usage: jpath [-l] pat [file ...]\n"), 2⟩)
  | expr :: files =>
    match Compile env expr with
    | .ok p =>
      match cmdLoop (fun k v => Eval env (oracles k) p v) encodes 0 0 inputs with
      | none => none
      | some (outs, e) => some (outs, e.ended env m byLine argv0 files)
    | .err e => some ([], ⟨some (errorf argv0 (b! "path " ++ quote env expr ++ b! ": " ++ e.text env)), 1⟩)
    | .panic _ | .stuck => some ([], ⟨none, 2⟩)

end JP
