import Verif.Spec.Keys
import Verif.Spec.GoLiteral
import Mathlib.Data.List.Forall2
import Verif.Model.Fns
/-!
The messages of the errors of `Eval`.
-/
namespace JP.Spec

/-- The operators that reject operands, as they are written in paths. -/
inductive WrittenAs : Op → Bytes → Prop
  | match_ : WrittenAs .match_ (b! "=~")
  | in_ : WrittenAs .in_ (b! "in")
  | nin : WrittenAs .nin (b! "nin")

/-- The rejected operand that an error holds, the operator, and what is said of them. -/
inductive Rejects : RErr → Op → Bytes → V → Prop
  | matchRight (v) : Rejects (.matchRight v) .match_ (b! " requires string or /re/ right operand, not ") v
  | matchLeft (v) : Rejects (.matchLeft v) .match_ (b! " requires string left operand, not ") v
  | inRight (op v) : op = .in_ ∨ op = .nin → Rejects (.inRight op v) op (b! " requires array right operand, not ") v

mutual
/-- A boolean or number (other than a `json.Number`) is the value or a part of it. -/
inductive HasNumber : V → Prop
  | bool (b) : HasNumber (.bool b)
  | gint (n) : HasNumber (.gint n)
  | int (n) : HasNumber (.int n)
  | float (x) : HasNumber (.float x)
  | arr (xs) : HasNumbers xs → HasNumber (.arr xs)
  | obj (kvs) : HasNumbers (kvs.map Prod.snd) → HasNumber (.obj kvs)
/-- Of one of these values. -/
inductive HasNumbers : List V → Prop
  | head (x xs) : HasNumber x → HasNumbers (x :: xs)
  | tail (x xs) : HasNumbers xs → HasNumbers (x :: xs)
end

/-- One text contains another. -/
def Within (a b : Bytes) : Prop := ∃ l r, b = l ++ a ++ r

/-- Texts with commas and blanks between them. -/
def separated : List Bytes → Bytes
  | [] => []
  | [t] => t
  | t :: ts => t ++ b! ", " ++ separated ts

/-- The members of a composite literal of Go, `key:value`. -/
def pairTexts : List Bytes → List Bytes → List Bytes
  | k :: ks, t :: ts => (k ++ b! ":" ++ t) :: pairTexts ks ts
  | _, _ => []

mutual
/-- The expressions of Go that stand for the values that a document can contain.  An empty array or object may be
nil in Go. -/
inductive GoExpr : V → Bytes → Prop
  | null : GoExpr .null (b! "interface {}(nil)")
  | true : GoExpr (.bool true) (b! "true")
  | false : GoExpr (.bool false) (b! "false")
  | gint (n t) : IntegerText n.toInt t → GoExpr (.gint n) t
  | int (n t) : IntegerText n.toInt t → GoExpr (.int n) t
  | float (x t) : GoNumber x t → GoExpr (.float x) t
  | str (s t) : GoLiteral t s → GoExpr (.str s) t
  | num (s t) : GoLiteral t s → GoExpr (.num s) t
  | nilSlice : GoExpr (.arr []) (b! "[]interface {}(nil)")
  | nilMap : GoExpr (.obj []) (b! "map[string]interface {}(nil)")
  | arr (xs ts) : GoExprs xs ts → GoExpr (.arr xs) (b! "[]interface {}{" ++ separated ts ++ b! "}")
  | obj (kvs sorted : List (Bytes × V)) (ks ts) : sorted.Perm kvs → sorted.Pairwise (fun a b => a.1 < b.1) → List.Forall₂ GoLiteral ks (sorted.map Prod.fst) →
      GoExprs (sorted.map Prod.snd) ts → GoExpr (.obj kvs) (b! "map[string]interface {}{" ++ separated (pairTexts ks ts) ++ b! "}")
/-- Those of several values. -/
inductive GoExprs : List V → List Bytes → Prop
  | nil : GoExprs [] []
  | cons (x xs t ts) : GoExpr x t → GoExprs xs ts → GoExprs (x :: xs) (t :: ts)
end

end JP.Spec
