import Verif.Model.Text
/-!
`fmt.Sprint` of the values that a Go `interface{}` of type `JSON` can hold in this program.
-/
namespace JP

/-- `Error` of an error value: mach/run.go:20-22; errors of strconv and regexp are parameters. -/
def Err.text (env : Env) : Err → Bytes
  | .failure => b! "failed"
  | .type => b! "operand or parameter has wrong type"
  | .overflow => b! "arithmetic overflow"
  | .parseNum s => env.numError s
  | .regexp s => env.reError s

/-- Puts a member of a map among others, in the order of the keys. -/
def insertKey (k t : Bytes) : List (Bytes × Bytes) → List (Bytes × Bytes)
  | [] => [(k, t)]
  | (k', t') :: r => if k < k' then (k, t) :: (k', t') :: r else (k', t') :: insertKey k t r

/-- Members of a map in the order of the keys. -/
def sortKeys : List (Bytes × Bytes) → List (Bytes × Bytes)
  | [] => []
  | (k, t) :: r => insertKey k t (sortKeys r)

mutual
/-- `fmt.Sprint(v)`, the verb `%v`: strings as they are, elements of arrays with blanks between them, members of
maps sorted; `*regexp.Regexp`, `*paths.Slice`, `paths.NameVal` and `json.Number` have a method `String`. -/
def sprint (env : Env) : V → Bytes
  | .null => b! "<nil>"
  | .bool b => if b then b! "true" else b! "false"
  | .gint n => intToBytes n.toInt
  | .int n => intToBytes n.toInt
  | .float f => fmtFloat f
  | .str s => s
  | .num s => s
  | .arr xs => c! '[' :: (spaced (sprints env xs) ++ [c! ']'])
  | .obj kvs => b! "map[" ++ (spaced ((sortKeys (sprintMembers env kvs)).map fun (k, t) => k ++ c! ':' :: t) ++ [c! ']'])
  | .name s => s
  | .re p => p
  | .slice s => s.text env
  | .err e => e.text env
/-- Each of a list. -/
def sprints (env : Env) : List V → List Bytes
  | [] => []
  | x :: xs => sprint env x :: sprints env xs
/-- Each member of a map. -/
def sprintMembers (env : Env) : List (Bytes × V) → List (Bytes × Bytes)
  | [] => []
  | (k, x) :: kvs => (k, sprint env x) :: sprintMembers env kvs
end

end JP
