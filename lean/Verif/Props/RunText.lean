import Verif.Proof.RunText
import Verif.Props.Errors
/-!
C64: the messages of the errors of `Eval`.
-/
namespace JP
open Spec

variable (env : Env)

/-- The full statement: an operand is rejected with a message that begins with the operator as it is written in the
path, and ends with the text of the operand. -/
def RejectionRule : Prop :=
  ∀ (oracle : Oracle) (p : JSONPath) (q : Path) (root : V) (x : RErr) (op : Op) (w words : Bytes) (v : V) (t : Bytes), IsCompiled env p q →
    root.WF → Eval env oracle p root = some (.err x) → Rejects x op words v → WrittenAs op w → GoText v t → x.text env = w ++ words ++ t

/-- It is false: `$[?(1 in 2)]` gives `in requires array right operand, not %!s(int64=2)`. -/
theorem C64_rejection_fails : ¬ RejectionRule env := by
  intro h
  have := h Oracle.id _ _ (.arr [.null]) (.inRight .in_ (.int 2)) _ _ _ _ (b! "2") ⟨⟨b! "$[?(1 in 2)]", rfl, rfl⟩, by decide⟩ (by simp [V.WF, WFs])
    (run_of_runFuel 10 _ rfl) (.inRight .in_ (.int 2) (.inl rfl)) .in_ (.int 2 _ (.nonneg 2 _ (numeral_natToBytes 2)))
  revert this
  rw [show RErr.text env (.inRight .in_ (.int 2)) = b! "in requires array right operand, not %!s(int64=2)" from rfl]
  decide

/-- It holds for `in` and `nin` with an operand that is not null and that neither is nor contains a boolean or number. -/
theorem C64_rejection_partial (x : RErr) (op : Op) (w words : Bytes) (v : V) (t : Bytes) (hx : Rejects x op words v) (ho : op ≠ .match_)
    (hw : WrittenAs op w) (hn : v ≠ .null) (hp : ¬ HasNumber v) (ht : GoText v t) : x.text env = w ++ words ++ t := by
  have hs : sformat env v = t := by
    rw [← goText_sprint env ht, ← sformatIn_plain env hp]
    cases v <;> first | rfl | exact absurd rfl hn
  cases hx with
  | matchRight | matchLeft => exact absurd rfl ho
  | inRight _ _ _ => rw [RErr.text, hs]; cases hw <;> first | rfl | exact absurd rfl ho

example := C64_rejection_partial Ex.env (.inRight .nin (.str (b! "a"))) .nin (b! "nin") _ (.str (b! "a")) (b! "a") (.inRight _ _ (.inr rfl)) (by simp)
  .nin (by simp) (by rintro ⟨⟩) (.str _)

/-- With the others the message is marked as an error of its own: it contains `%!s(`. -/
theorem C64_rejection_marked (x : RErr) (op : Op) (words : Bytes) (v : V) (hx : Rejects x op words v) (hm : x ≠ .matchRight v)
    (hv : v = .null ∨ HasNumber v) : Within (b! "%!s(") (x.text env) := by
  have hs : Within (b! "%!s(") (sformat env v) := by
    rcases hv with rfl | h
    · exact ⟨[], b! "<nil>)", rfl⟩
    · have := sformatIn_number env h
      cases v <;> first | exact this | exact absurd h (by rintro ⟨⟩)
  refine hs.trans ?_
  cases hx with
  | matchRight => exact absurd rfl hm
  | matchLeft | inRight => exact ⟨_, [], (List.append_nil _).symm⟩

example := C64_rejection_marked Ex.env (.inRight .in_ (.int 1)) .in_ _ (.int 1) (.inRight _ _ (.inl rfl)) (by simp) (.inr (.int 1))

/-- And `=~` is written `~`. -/
theorem C64_match_operator (x : RErr) (words : Bytes) (v : V) (hx : Rejects x .match_ words v) :
    ∃ r, x.text env = b! "~" ++ words ++ r := by
  cases hx with
  | matchRight => exact ⟨_, rfl⟩
  | matchLeft => exact ⟨_, rfl⟩
  | inRight _ _ h => rcases h with h | h <;> cases h

example := C64_match_operator Ex.env (.matchLeft (.int 1)) _ (.int 1) (.matchLeft _)

/-- On the left of `=~` the operand is shown as by `in`; on the right numbers, booleans and null are shown by their text. -/
theorem C64_match_operand (v : V) (t : Bytes) (ht : GoText v t) :
    (v ≠ .null → ¬ HasNumber v → RErr.text env (.matchLeft v) = b! "~ requires string left operand, not " ++ t) ∧
    (v = .null ∨ HasNumber v → (∀ xs, v ≠ .arr xs) → (∀ kvs, v ≠ .obj kvs) →
      RErr.text env (.matchRight v) = b! "~ requires string or /re/ right operand, not " ++ t) := by
  refine ⟨fun hn hp => ?_, fun h ha ho => ?_⟩
  · have hs : sformat env v = t := by
      rw [← goText_sprint env ht, ← sformatIn_plain env hp]
      cases v <;> first | rfl | exact absurd rfl hn
    rw [RErr.text, hs]; rfl
  · rw [RErr.text, gosyntax_simple env ht h ha ho]; rfl

example := C64_match_operand Ex.env (.arr [.str (b! "a"), .null]) (b! "[a <nil>]") (.arr _ _ (.cons _ _ _ _ (.str _) (.cons _ _ _ _ .null .nil)))

/-- On the right of `=~` arrays and objects are shown as expressions of Go; how empty ones are shown is up to `fmt`. -/
theorem C64_match_expression (h1 : GoExpr (.arr []) (env.goOpaque (.arr []))) (h2 : GoExpr (.obj []) (env.goOpaque (.obj [])))
    (v : V) (hv : v.WF) (hn : v ≠ .null) :
    ∃ e, GoExpr v e ∧ RErr.text env (.matchRight v) = b! "~ requires string or /re/ right operand, not " ++ e := by
  refine ⟨_, gosyntaxIn_expr env ⟨h1, h2⟩ hv, ?_⟩
  cases v <;> first | rfl | exact absurd rfl hn

/-- So the text of the array or object never follows the words. -/
theorem C64_match_structure (h1 : GoExpr (.arr []) (env.goOpaque (.arr []))) (h2 : GoExpr (.obj []) (env.goOpaque (.obj [])))
    (v : V) (hv : v.WF) (ha : (∃ xs, v = .arr xs) ∨ ∃ kvs, v = .obj kvs) (t : Bytes) (ht : GoText v t) :
    RErr.text env (.matchRight v) ≠ b! "~ requires string or /re/ right operand, not " ++ t := by
  intro h
  obtain ⟨e, he, h'⟩ := C64_match_expression env h1 h2 v hv (by rcases ha with ⟨_, rfl⟩ | ⟨_, rfl⟩ <;> simp)
  rw [h'] at h
  obtain rfl := List.append_cancel_left h
  exact absurd (goText_lt_expr env ht he ha) (lt_irrefl _)

/-- An environment in which empty arrays and objects are not nil. -/
example : ∃ env : Env, GoExpr (.arr []) (env.goOpaque (.arr [])) ∧ GoExpr (.obj []) (env.goOpaque (.obj [])) :=
  ⟨{ Ex.env with goOpaque := fun v => match v with | .obj [] => b! "map[string]interface {}{}" | _ => b! "[]interface {}{}" },
    .arr [] [] .nil, .obj [] [] [] [] (.refl _) .nil .nil .nil⟩

example : V.WF (.obj [(b! "b", .arr [.null]), (b! "a", .str (b! "x"))]) ∧
    RErr.text Ex.env (.matchRight (.obj [(b! "b", .arr [.null]), (b! "a", .str (b! "x"))])) =
      b! "~ requires string or /re/ right operand, not map[string]interface {}{\"a\":\"x\", \"b\":[]interface {}{interface {}(nil)}}" :=
  ⟨by simp [V.WF, WFs, WFm], rfl⟩

/-- All messages: the rejections, calls of unknown functions with the name, wrong numbers of arguments with the name and
both numbers, and the messages of `regexp.Compile`. -/
theorem C64_all (oracle : Oracle) (p : JSONPath) (q : Path) (h : IsCompiled env p q) (root : V) (x : RErr)
    (he : Eval env oracle p root = some (.err x)) :
    (∃ op words v, Rejects x op words v) ∨
    (∃ f, (∀ n, (f, n) ∉ functions) ∧ x.text env = b! "call of unknown function: " ++ f) ∨
    (∃ f need got a b, (f, some need) ∈ functions ∧ got ≠ need ∧ Numeral need a ∧ Numeral got b ∧
      x.text env = f ++ b! ": wrong argument count: need " ++ a ++ b! ", got " ++ b) ∨
    ∃ s, env.reValid s = false ∧ x.text env = env.reError s := by
  obtain ⟨s, hs, e, hm, e', hp, hc⟩ := C29_only env oracle p q h root x he
  cases hc with
  | badRegexp _ _ s _ hr => exact .inr (.inr (.inr ⟨s, hr, rfl⟩))
  | matchRight _ _ v => exact .inl ⟨_, _, _, .matchRight v⟩
  | matchLeft _ _ v => exact .inl ⟨_, _, _, .matchLeft v⟩
  | inRight op _ _ v ho => exact .inl ⟨_, _, _, .inRight op v ho⟩
  | unknownFunction f _ hf => exact .inr (.inl ⟨f, hf, rfl⟩)
  | wrongArgs f n args hf hn => exact .inr (.inr (.inl ⟨f, n, _, _, _, hf, hn, numeral_natToBytes _, numeral_natToBytes _, rfl⟩))

example : ∃ p q, IsCompiled Ex.env p q ∧ Eval Ex.env Oracle.id p (.arr [.null]) = some (.err (.inRight .nin (.str (b! "a")))) ∧
    RErr.text Ex.env (.inRight .nin (.str (b! "a"))) = b! "nin requires array right operand, not a" :=
  ⟨_, _, ⟨⟨b! "$[?(1 nin 'a')]", rfl, rfl⟩, by decide⟩, run_of_runFuel 10 _ rfl, rfl⟩

example : ¬ HasNumber (.obj [(b! "b", .str (b! "x")), (b! "a", .null)]) ∧
    GoText (.obj [(b! "b", .str (b! "x")), (b! "a", .null)]) (b! "map[a:<nil> b:x]") := by
  refine ⟨?_, .obj _ [(b! "a", .null), (b! "b", .str (b! "x"))] _ (.swap _ _ _) (by simp; decide)
    (.cons _ _ _ _ .null (.cons _ _ _ _ (.str _) .nil))⟩
  rintro ⟨⟩
  next h =>
  rcases h with ⟨_, _, ⟨⟩⟩ | ⟨_, _, ⟨_, _, ⟨⟩⟩ | ⟨_, _, ⟨⟩⟩⟩

example : HasNumber (.obj [(b! "b", .str (b! "x")), (b! "a", .arr [.int 1])]) :=
  .obj _ (.tail _ _ (.head _ _ (.arr _ (.head _ _ (.int 1)))))

example : RErr.text Ex.env (.wrongArgs (b! "abs") 1 2) = b! "abs: wrong argument count: need 1, got 2" := rfl

example : RErr.text Ex.env (.matchRight (.arr [.null, .str (b! "a")])) =
    b! "~ requires string or /re/ right operand, not []interface {}{interface {}(nil), \"a\"}" := rfl

end JP
