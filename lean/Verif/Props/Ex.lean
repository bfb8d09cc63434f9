import Verif.Spec.Text
/-! A concrete environment and concrete documents, used only by the examples beside the theorems. -/
/-- Did a call return a value? -/
def JP.Res.isOk {ε α : Type} : JP.Res ε α → Bool
  | .ok _ => true
  | _ => false

namespace JP.Ex

/-- An environment in which only decimal texts are numbers and every regular expression is valid and
matches only its own text. -/
def env : Env where
  parseOther _ := none
  reValid _ := true
  reMatch p s := p == s
  reSplit _ s := [s]
  f2iOut _ := 0
  isPrint _ := true
  reError _ := b! "error"
  numError _ := b! "error"
  goOpaque _ := b! "?"

/-- The document `{"a": [1, 2, 3], "b": {"a": null}}`. -/
def doc : V := .obj [(b! "a", .arr [.int 1, .int 2, .int 3]), (b! "b", .obj [(b! "a", .null)])]

theorem doc_wf : doc.WF := by
  simp [doc, V.WF, WFs, WFm]

/-- The oracle of the examples lists the members of every object in the order they are written. -/
theorem valid : Oracle.id.Valid := fun _ _ _ => .refl _

end JP.Ex
