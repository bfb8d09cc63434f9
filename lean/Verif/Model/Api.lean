import Verif.Model.Parse
import Verif.Model.Coder
import Verif.Model.Machine
import Verif.Model.Text
/-!
jsonpath.go: the public API.
-/
namespace JP

/-- The errors `Compile` can return. -/
inductive CompileErr where
  | parse (e : PErr)
  | code (e : CErr)
  deriving DecidableEq, Repr

/-- jsonpath.go:32-36 `JSONPath`. The field `path` is never set. -/
structure JSONPath where
  expr : Bytes
  prog : Program
  deriving Repr, Inhabited

/-- jsonpath.go:39-41 `String`. -/
def JSONPath.string (p : JSONPath) : Bytes := p.expr

/-- jsonpath.go:46-56 `Compile`. -/
def Compile (env : Env) (expr : Bytes) : Res CompileErr JSONPath :=
  match parsePath env expr with
  | .err e => .err (.parse e)
  | .panic m => .panic m
  | .stuck => .stuck
  | .ok path =>
    match compile path with
    | .err e => .err (.code e)
    | .panic m => .panic m
    | .stuck => .stuck
    | .ok prog => .ok ⟨expr, prog⟩

/-- The message of an error that `Compile` returns: `err.Error()`. -/
def CompileErr.text (env : Env) : CompileErr → Bytes
  | .parse e => e.text env
  | .code e => e.text

/-- The ways a call of `MustCompile` can end: it returns a path, panics with a message of its own, or lets
through a panic of `Compile` (this does not happen: C01). -/
inductive Must where
  | path (p : JSONPath)
  | panics (message : Bytes)
  | fault (m : String)
  | stuck
  deriving Repr

/-- jsonpath.go:59-65 `MustCompile`. -/
def MustCompile (env : Env) (expr : Bytes) : Must :=
  match Compile env expr with
  | .err e => .panics (b! "jsonpath: Compile(" ++ quote env expr ++ b! "): " ++ e.text env)
  | .panic m => .fault m
  | .stuck => .stuck
  | .ok p => .path p

/-- jsonpath.go:91-93 `Eval`; `none` is non-termination. The oracle gives the iteration order of
every map iteration. -/
def Eval (env : Env) (oracle : Oracle) (p : JSONPath) (root : V) : Option (Res RErr GoSlice) :=
  run env oracle p.prog root (MState.init root)

end JP
