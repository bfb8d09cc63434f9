import Verif.Model.Conv
import Verif.Model.Machine
/-!
mach/json.go: comparison as in `Model/Conv`, with the number of calls of `eqVal`.  `ord` gives the order in which the loops over maps go
through the members, at the place `loc` of the left value.
-/
namespace JP

/-- mach/json.go:249-254: the loop over members, with what each comparison gives and takes; it ends at the first difference. -/
def untilFalse : List (Bool × Nat) → Bool × Nat
  | [] => (true, 0)
  | x :: r => if x.1 then ((untilFalse r).1, x.2 + (untilFalse r).2) else (false, x.2)

mutual
/-- mach/json.go:150-259 `eqVal`. -/
def nEqVal (env : Env) (ord : Ord) (loc : List Nat) (a b : V) : Bool × Nat :=
  if typeOf a != typeOf b then (eqMixed env a b, 1)
  else match a with
    | .arr xs => (match b with
      | .arr ys => if xs.length == ys.length then ((nEqElems env ord loc 0 xs ys).1, (nEqElems env ord loc 0 xs ys).2 + 1) else (false, 1)
      | _ => (false, 1))
    | .obj kvs => (match b with
      | .obj mvs =>
        if kvs.length == mvs.length then
          ((untilFalse (permute (ord loc kvs.length) (nEqMembers env ord loc 0 kvs mvs))).1,
            (untilFalse (permute (ord loc kvs.length) (nEqMembers env ord loc 0 kvs mvs))).2 + 1)
        else (false, 1)
      | _ => (false, 1))
    | a => (eqVal env a b, 1)
/-- mach/json.go:238-242. -/
def nEqElems (env : Env) (ord : Ord) (loc : List Nat) (i : Nat) : List V → List V → Bool × Nat
  | [], _ => (true, 0)
  | _ :: _, [] => (true, 0)
  | x :: xs, y :: ys =>
    if (nEqVal env ord (i :: loc) x y).1 then
      ((nEqElems env ord loc (i + 1) xs ys).1, (nEqVal env ord (i :: loc) x y).2 + (nEqElems env ord loc (i + 1) xs ys).2)
    else (false, (nEqVal env ord (i :: loc) x y).2)
/-- mach/json.go:249-253: what the comparison of each member gives and takes. -/
def nEqMembers (env : Env) (ord : Ord) (loc : List Nat) (i : Nat) : List (Bytes × V) → List (Bytes × V) → List (Bool × Nat)
  | [], _ => []
  | (k, v) :: r, m => nEqVal env ord (i :: loc) v ((lookup m k).getD .null) :: nEqMembers env ord loc (i + 1) r m
end

/-- mach/json.go:264-271 `searchJSON`. -/
def nSearch (env : Env) (ord : Ord) (v : V) (f : Bool) (i : Nat) : List V → Bool × Nat
  | [] => (!f, 0)
  | el :: r =>
    if (nEqVal env ord [i] el v).1 then (f, (nEqVal env ord [i] el v).2)
    else ((nSearch env ord v f (i + 1) r).1, (nEqVal env ord [i] el v).2 + (nSearch env ord v f (i + 1) r).2)

end JP
