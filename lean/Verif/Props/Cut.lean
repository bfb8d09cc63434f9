import Verif.Proof.Cut
import Verif.Props.JoinPath
/-!
C93: texts of paths may be cut between steps.
-/
namespace JP
open Spec

variable (env : Env) (oracle : Oracle)

/-- A text is a path of the steps of `p` and those of `q` exactly if it is a path `a` of the steps of `p` and an `r` such that `$r` is one
of the steps of `q`. -/
theorem C93_cut (text : Bytes) (p q : Path) : parsePath env text = .ok (p ++ q) ↔
    ∃ a r, text = a ++ r ∧ parsePath env a = .ok p ∧ parsePath env (c! '$' :: r) = .ok q := by
  refine ⟨parsePath_cut, ?_⟩
  rintro ⟨a, r, rfl, ha, hr⟩
  exact C84_join env a r p q ha hr

/-- `$..a[?(@.b)]`, after the first step. -/
example : ∃ a r, b! "$..a[?(@.b)]" = a ++ r ∧ parsePath Ex.env a = .ok [⟨.nestMember, [.name (b! "a")]⟩] ∧
    parsePath Ex.env (c! '$' :: r) = .ok [⟨.filter, [.expr (.inner .dot [.current, .name (b! "b")])]⟩] :=
  (C93_cut Ex.env _ [_] [_]).1 rfl

/-- A text is a path exactly if it is a `$`, perhaps among white space, and texts of single steps. -/
theorem C93_pieces (text : Bytes) (p : Path) : parsePath env text = .ok p ↔
    ∃ head pieces, text = head ++ pieces.flatten ∧ parsePath env head = .ok [] ∧
      All2 (fun piece s => parsePath env (c! '$' :: piece) = .ok [s]) pieces p := by
  constructor
  · have snoc : ∀ {pieces : List Bytes} {p : Path} {piece : Bytes} {s : Step},
        All2 (fun piece s => parsePath env (c! '$' :: piece) = .ok [s]) pieces p → parsePath env (c! '$' :: piece) = .ok [s] →
        All2 (fun piece s => parsePath env (c! '$' :: piece) = .ok [s]) (pieces ++ [piece]) (p ++ [s]) := by
      intro pieces p piece s h hp
      induction h with
      | nil => exact .cons hp .nil
      | cons h _ ih => exact .cons h ih
    have go : ∀ (n : Nat) (p : Path), p.length = n → ∀ text, parsePath env text = .ok p →
        ∃ head pieces, text = head ++ pieces.flatten ∧ parsePath env head = .ok [] ∧
          All2 (fun piece s => parsePath env (c! '$' :: piece) = .ok [s]) pieces p := by
      intro n
      induction n with
      | zero =>
        intro p hp text h
        rw [List.length_eq_zero_iff.1 hp] at h ⊢
        exact ⟨text, [], by simp, h, .nil⟩
      | succ n ih =>
        intro p hp text h
        rcases List.eq_nil_or_concat p with rfl | ⟨q, s, rfl⟩
        · cases hp
        · rw [List.concat_eq_append] at hp h ⊢
          obtain ⟨a, r, rfl, h1, h2⟩ := (C93_cut env text q [s]).1 h
          obtain ⟨head, pieces, rfl, h3, h4⟩ := ih q (by simpa using hp) a h1
          exact ⟨head, pieces ++ [r], by simp, h3, snoc h4 h2⟩
    exact go p.length p rfl text
  · rintro ⟨head, pieces, rfl, h1, h2⟩
    have go : ∀ {pieces : List Bytes} {p : Path}, All2 (fun piece s => parsePath env (c! '$' :: piece) = .ok [s]) pieces p →
        ∀ (a : Bytes) (q : Path), parsePath env a = .ok q → parsePath env (a ++ pieces.flatten) = .ok (q ++ p) := by
      intro pieces p h
      induction h with
      | nil => intro a q h; simpa using h
      | cons h _ ih =>
        intro a q ha
        have := ih _ _ (C84_join env _ _ _ _ ha h)
        simpa using this
    exact go h2 head [] h1

/-- `$ .a [1]` and its pieces. -/
example : parsePath Ex.env (b! "$ .a [1]") = .ok [⟨.member, [.name (b! "a")]⟩, ⟨.select, [.int 1]⟩] :=
  (C93_pieces Ex.env _ _).2 ⟨b! "$ ", [b! ".a ", b! "[1]"], rfl, rfl, .cons rfl (.cons rfl .nil)⟩

/-- So every path that `Compile` accepts may be cut after any of its steps. -/
theorem C93_compile (text : Bytes) (pt : JSONPath) (h : Compile env text = .ok pt) (hl : text.length ≤ 3 * 2 ^ 20) :
    ∃ p, parsePath env text = .ok p ∧ ∀ k, ∃ a r pa pr, text = a ++ r ∧ Compile env a = .ok pa ∧ Compile env (c! '$' :: r) = .ok pr ∧
      IsCompiled env pa (p.take k) ∧ IsCompiled env pr (p.drop k) := by
  obtain ⟨p, hp, _⟩ := Compile_ok h
  refine ⟨p, hp, fun k => ?_⟩
  obtain ⟨a, r, rfl, h1, h2⟩ := (C93_cut env text (p.take k) (p.drop k)).1 (by rw [List.take_append_drop]; exact hp)
  have ha : a ≠ [] := by
    rintro rfl
    cases h1
  have := List.length_pos_of_ne_nil ha
  rw [List.length_append] at hl
  obtain ⟨pa, c1, i1⟩ := compiled_of_parse h1 (by omega)
  obtain ⟨pr, c2, i2⟩ := compiled_of_parse h2 (by rw [List.length_cons]; omega)
  exact ⟨a, r, pa, pr, rfl, c1, c2, i1, i2⟩

example := C93_compile Ex.env (b! "$..a[?(@.b)].c") _ rfl (by decide)

/-- If an evaluation gives a result then so does that of the path cut after any of its steps, for the same choices of orders; and what
the cut-off steps make of it is the result of the whole. -/
theorem C93_results (pt : JSONPath) (p q : Path) (h : IsCompiled env pt (p ++ q)) (pa : JSONPath) (ha : IsCompiled env pa p)
    (root : V) (vs : List V) (hr : Eval env oracle pt root = some (.ok (some vs))) :
    ∃ ws, Eval env oracle pa root = some (.ok (some ws)) ∧
      (Path.NoRoot q → oracle.Valid → ∀ pr, IsCompiled env pr (⟨.wild, []⟩ :: q) → ∃ oracle' : Oracle, oracle'.Valid ∧
        Eval env oracle' pr (.arr ws) = some (.ok (some vs))) := by
  have hr0 := hr
  rw [h.eval] at hr
  obtain ⟨out, t, h1, _⟩ := evalPath_ok_iff.1 (Option.some.inj hr)
  rw [evalSteps_append] at h1
  obtain ⟨⟨o, t'⟩, h2, _⟩ := bind_eq_ok h1
  have h3 : Eval env oracle pa root = some (.ok (some o.elems)) := by
    rw [ha.eval, evalPath_ok_iff.2 ⟨o, t', h2, rfl⟩]
  refine ⟨o.elems, h3, fun hn hv pr hpr => ?_⟩
  obtain ⟨o', hv', he⟩ := C15_compose_eval env oracle hv pa pt pr p q hn ha h hpr root _ h3
  exact ⟨o', hv', by rw [← he, hr0]⟩

/-- `$[*][1]` of `[[5,6]]`, cut after `[*]`. -/
example := C93_results Ex.env Oracle.id _ [⟨.wild, []⟩] [⟨.select, [.int 1]⟩] ⟨⟨b! "$[*][1]", rfl, rfl⟩, by decide⟩ _ ⟨⟨b! "$[*]", rfl, rfl⟩, by decide⟩
  (.arr [.arr [.int 5, .int 6]]) [.int 6] (run_of_runFuel 4 _ rfl)

end JP
