import Verif.Model.Sprint
import Verif.Model.Fns
/-!
The messages of the errors that `Eval` returns: mach/run.go:449-519.
-/
namespace JP

/-- What `fmt` writes for a value of a type for which the verb `%s` has no meaning. -/
def badVerb (type text : Bytes) : Bytes := b! "%!s(" ++ type ++ c! '=' :: (text ++ [c! ')'])

mutual
/-- The verb `%s`, inside an array or map. -/
def sformatIn (env : Env) : V → Bytes
  | .bool b => badVerb (b! "bool") (if b then b! "true" else b! "false")
  | .gint n => badVerb (b! "int") (intToBytes n.toInt)
  | .int n => badVerb (b! "int64") (intToBytes n.toInt)
  | .float f => badVerb (b! "float64") (fmtFloat f)
  | .arr xs => c! '[' :: (spaced (sformatElems env xs) ++ [c! ']'])
  | .obj kvs => b! "map[" ++ (spaced ((sortKeys (sformatMembers env kvs)).map fun (k, t) => k ++ c! ':' :: t) ++ [c! ']'])
  | .null => b! "<nil>"
  | .str s => s
  | .num s => s
  | .name s => s
  | .re p => p
  | .slice s => s.text env
  | .err e => e.text env
/-- Each of a list. -/
def sformatElems (env : Env) : List V → List Bytes
  | [] => []
  | x :: xs => sformatIn env x :: sformatElems env xs
/-- Each member of a map. -/
def sformatMembers (env : Env) : List (Bytes × V) → List (Bytes × Bytes)
  | [] => []
  | (k, x) :: kvs => (k, sformatIn env x) :: sformatMembers env kvs
end

/-- The verb `%s`. -/
def sformat (env : Env) : V → Bytes
  | .null => b! "%!s(<nil>)"
  | v => sformatIn env v

/-- Texts with commas and blanks between them. -/
def commas : List Bytes → Bytes
  | [] => []
  | [t] => t
  | t :: ts => t ++ c! ',' :: c! ' ' :: commas ts

mutual
/-- The verb `%#v`, inside an array or map. -/
def gosyntaxIn (env : Env) : V → Bytes
  | .null => b! "interface {}(nil)"
  | .bool b => if b then b! "true" else b! "false"
  | .gint n => intToBytes n.toInt
  | .int n => intToBytes n.toInt
  | .float f => fmtFloat f
  | .str s => goQuote env s
  | .num s => goQuote env s
  | .name s => goQuote env s
  | .arr [] => env.goOpaque (.arr [])
  | .arr (x :: xs) => b! "[]interface {}{" ++ (commas (gosyntaxIn env x :: gosyntaxElems env xs) ++ [c! '}'])
  | .obj [] => env.goOpaque (.obj [])
  | .obj ((k, x) :: kvs) => b! "map[string]interface {}{" ++
      (commas ((sortKeys ((k, gosyntaxIn env x) :: gosyntaxMembers env kvs)).map fun (k, t) => goQuote env k ++ c! ':' :: t) ++ [c! '}'])
  | .re p => env.goOpaque (.re p)
  | .slice s => env.goOpaque (.slice s)
  | .err e => env.goOpaque (.err e)
/-- Each of a list. -/
def gosyntaxElems (env : Env) : List V → List Bytes
  | [] => []
  | x :: xs => gosyntaxIn env x :: gosyntaxElems env xs
/-- Each member of a map. -/
def gosyntaxMembers (env : Env) : List (Bytes × V) → List (Bytes × Bytes)
  | [] => []
  | (k, x) :: kvs => (k, gosyntaxIn env x) :: gosyntaxMembers env kvs
end

/-- The verb `%#v`. -/
def gosyntax (env : Env) : V → Bytes
  | .null => b! "<nil>"
  | v => gosyntaxIn env v

/-- `Error` of the errors of `Eval`: mach/run.go:449, 452, 458, 470, 482, 516, 519. -/
def RErr.text (env : Env) : RErr → Bytes
  | .badRegexp s => env.reError s
  | .matchRight v => Op.text .match_ ++ b! " requires string or /re/ right operand, not " ++ gosyntax env v
  | .matchLeft v => Op.text .match_ ++ b! " requires string left operand, not " ++ sformat env v
  | .inRight op v => op.text ++ b! " requires array right operand, not " ++ sformat env v
  | .unknownFunction id => b! "call of unknown function: " ++ id
  | .wrongArgs id need got => id ++ b! ": wrong argument count: need " ++ natToBytes need ++ b! ", got " ++ natToBytes got
  | .unimplemented op pc => b! "unimplemented " ++ ((Op.ofNat? op).map Op.name).getD [] ++ b! " at pc " ++ natToBytes pc

end JP
