import Verif.Proof.Descent
import Verif.Props.Steps
/-!
The algebra of descent: C74.  In full the claim is that for every step `s` and path `q`, `q..s` selects what `q.s` and
`q.*..s` select together, and also what `q.s` and `q..*.s` do, each as often.  (The brackets of a subscript are meant
with `s`.)  The code does not meet it for filters and slices; it is proved for names, integers, unions of these, and `*`.
-/
namespace JP
open Spec

variable (env : Env) (oracle : Oracle)

/-! ### C74 The algebra of descent -/

/-- The first law: `q..s` is `q.s` and `q.*..s`. -/
def ChildLaw (s : Step) : Prop :=
  ∀ (oracle : Oracle), oracle.Valid → ∀ (p p1 p2 p3 p4 : JSONPath) (q : Path), IsCompiled env p q → IsCompiled env p1 (q ++ [withDots s]) →
    IsCompiled env p2 (q ++ [s]) → IsCompiled env p3 (q ++ [⟨.wild, []⟩]) → IsCompiled env p4 ((q ++ [⟨.wild, []⟩]) ++ [withDots s]) →
    ∀ (root : V), root.WF → ∀ vs, Eval env oracle p root = some (.ok (some vs)) →
    ∃ a b c, Eval env oracle p1 root = some (.ok (some a)) ∧ Eval env oracle p2 root = some (.ok (some b)) ∧
      Eval env oracle p4 root = some (.ok (some c)) ∧ a.Perm (b ++ c)

/-- The second law: `q..s` is `q.s` and `q..*.s`. -/
def StarLaw (s : Step) : Prop :=
  ∀ (oracle : Oracle), oracle.Valid → ∀ (p p1 p2 p3 p4 : JSONPath) (q : Path), IsCompiled env p q → IsCompiled env p1 (q ++ [withDots s]) →
    IsCompiled env p2 (q ++ [s]) → IsCompiled env p3 (q ++ [⟨.nestWild, []⟩]) → IsCompiled env p4 ((q ++ [⟨.nestWild, []⟩]) ++ [s]) →
    ∀ (root : V), root.WF → ∀ vs, Eval env oracle p root = some (.ok (some vs)) →
    ∃ a b c, Eval env oracle p1 root = some (.ok (some a)) ∧ Eval env oracle p2 root = some (.ok (some b)) ∧
      Eval env oracle p4 root = some (.ok (some c)) ∧ a.Perm (b ++ c)

/-- Both are false for filters: `$..[?(true)]` selects the array `[1]` itself, and `$[?(true)]` its element. -/
theorem C74_filter_fails : ¬ ChildLaw env ⟨.filter, [.expr (.bool true)]⟩ ∧ ¬ StarLaw env ⟨.filter, [.expr (.bool true)]⟩ := by
  constructor
  · intro h
    obtain ⟨a, b, c, h1, h2, h3, h4⟩ := h Oracle.id Ex.valid _ _ _ _ _ [] ⟨⟨b! "$", rfl, rfl⟩, by decide⟩
      ⟨⟨b! "$..[?(true)]", rfl, rfl⟩, by decide⟩ ⟨⟨b! "$[?(true)]", rfl, rfl⟩, by decide⟩ ⟨⟨b! "$.*", rfl, rfl⟩, by decide⟩
      ⟨⟨b! "$.*..[?(true)]", rfl, rfl⟩, by decide⟩ (.arr [.int 1]) (by simp [V.WF, WFs]) _ (run_of_runFuel 10 _ rfl)
    have e1 := h1.symm.trans (run_of_runFuel (r := .ok (some [.arr [.int 1]])) 20 _ rfl)
    have e2 := h2.symm.trans (run_of_runFuel (r := .ok (some [.int 1])) 20 _ rfl)
    have e3 := h3.symm.trans (run_of_runFuel (r := .ok (some [.null])) 20 _ rfl)
    cases e1; cases e2; cases e3
    exact absurd h4.length_eq (by simp)
  · intro h
    obtain ⟨a, b, c, h1, h2, h3, h4⟩ := h Oracle.id Ex.valid _ _ _ _ _ [] ⟨⟨b! "$", rfl, rfl⟩, by decide⟩
      ⟨⟨b! "$..[?(true)]", rfl, rfl⟩, by decide⟩ ⟨⟨b! "$[?(true)]", rfl, rfl⟩, by decide⟩ ⟨⟨b! "$..*", rfl, rfl⟩, by decide⟩
      ⟨⟨b! "$..*[?(true)]", rfl, rfl⟩, by decide⟩ (.arr [.int 1]) (by simp [V.WF, WFs]) _ (run_of_runFuel 10 _ rfl)
    have e1 := h1.symm.trans (run_of_runFuel (r := .ok (some [.arr [.int 1]])) 20 _ rfl)
    have e2 := h2.symm.trans (run_of_runFuel (r := .ok (some [.int 1])) 20 _ rfl)
    have e3 := h3.symm.trans (run_of_runFuel (r := .ok (some [.null])) 20 _ rfl)
    cases e1; cases e2; cases e3
    exact absurd h4.length_eq (by simp)

/-- Both are false for slices: of `[1, {}]`, `$..[0:1]` selects nothing, since the slice meets an object at last. -/
theorem C74_slice_fails : ¬ ChildLaw env ⟨.select, [.slice ⟨some (.int 0), some (.int 1), none⟩]⟩ ∧
    ¬ StarLaw env ⟨.select, [.slice ⟨some (.int 0), some (.int 1), none⟩]⟩ := by
  constructor
  · intro h
    obtain ⟨a, b, c, h1, h2, h3, h4⟩ := h Oracle.id Ex.valid _ _ _ _ _ [] ⟨⟨b! "$", rfl, rfl⟩, by decide⟩
      ⟨⟨b! "$..[0:1]", rfl, rfl⟩, by decide⟩ ⟨⟨b! "$[0:1]", rfl, rfl⟩, by decide⟩ ⟨⟨b! "$.*", rfl, rfl⟩, by decide⟩
      ⟨⟨b! "$.*..[0:1]", rfl, rfl⟩, by decide⟩ (.arr [.int 1, .obj []]) (by simp [V.WF, WFs, WFm]) _ (run_of_runFuel 10 _ rfl)
    have e1 := h1.symm.trans (run_of_runFuel (r := .ok (some [])) 20 _ rfl)
    have e2 := h2.symm.trans (run_of_runFuel (r := .ok (some [.int 1])) 20 _ rfl)
    cases e1; cases e2
    exact absurd h4.length_eq (by simp)
  · intro h
    obtain ⟨a, b, c, h1, h2, h3, h4⟩ := h Oracle.id Ex.valid _ _ _ _ _ [] ⟨⟨b! "$", rfl, rfl⟩, by decide⟩
      ⟨⟨b! "$..[0:1]", rfl, rfl⟩, by decide⟩ ⟨⟨b! "$[0:1]", rfl, rfl⟩, by decide⟩ ⟨⟨b! "$..*", rfl, rfl⟩, by decide⟩
      ⟨⟨b! "$..*[0:1]", rfl, rfl⟩, by decide⟩ (.arr [.int 1, .obj []]) (by simp [V.WF, WFs, WFm]) _ (run_of_runFuel 10 _ rfl)
    have e1 := h1.symm.trans (run_of_runFuel (r := .ok (some [])) 20 _ rfl)
    have e2 := h2.symm.trans (run_of_runFuel (r := .ok (some [.int 1])) 20 _ rfl)
    cases e1; cases e2
    exact absurd h4.length_eq (by simp)

/-- A step that selects `f v` from each value, up to order, and with `..` from each array and object. -/
private structure Both (s : Step) (f : V → List V) : Prop where
  none : ∀ v, isStructure v = false → f v = []
  plain : ∀ {oracle : Oracle}, oracle.Valid → ∀ {p1 p2 : JSONPath} {q : Path}, IsCompiled env p1 q → IsCompiled env p2 (q ++ [s]) →
    ∀ {root : V}, root.WF → ∀ {vs}, Eval env oracle p1 root = some (.ok (some vs)) →
    ∃ r, Eval env oracle p2 root = some (.ok (some r)) ∧ r.Perm (vs.flatMap f)
  nest : ∀ {oracle : Oracle}, oracle.Valid → ∀ {p1 p2 : JSONPath} {q : Path}, IsCompiled env p1 q → IsCompiled env p2 (q ++ [withDots s]) →
    ∀ {root : V}, root.WF → ∀ {vs}, Eval env oracle p1 root = some (.ok (some vs)) →
    ∃ l r, PreOrders vs l ∧ Eval env oracle p2 root = some (.ok (some r)) ∧ r.Perm (l.flatMap f)

private theorem sel_none {sel : Sel} (h : ∀ a b c, sel ≠ .slice a b c) {v : V} (hv : isStructure v = false) : sel.of v = [] := by
  cases sel with
  | name s => exact memberOf_none hv
  | index n => exact indexOf_none hv
  | slice a b c => exact absurd rfl (h a b c)

private theorem key_sel {v : Val} (h : PlainKey v) : ∃ sel : Sel, sel.Is v ∧ (∀ a b c, sel ≠ .slice a b c) ∧ ∀ w, sel.Fits w := by
  cases h with
  | name s => exact ⟨.name s, .name s, nofun, fun _ => trivial⟩
  | str s => exact ⟨.name s, .str s, nofun, fun _ => trivial⟩
  | int n => exact ⟨.index n, .int n, nofun, fun _ => trivial⟩

private theorem keys_sels : ∀ {vs : List Val}, (∀ v ∈ vs, PlainKey v) → ∃ sels : List Sel, All2 (fun v s => Sel.Is v s) vs sels ∧
    (∀ sel ∈ sels, ∀ a b c, sel ≠ .slice a b c) ∧ ∀ w, ∀ sel ∈ sels, sel.Fits w
  | [], _ => ⟨[], .nil, nofun, nofun⟩
  | v :: r, h => by
    obtain ⟨s, h1, h2, h3⟩ := key_sel (h v (by simp))
    obtain ⟨ss, h4, h5, h6⟩ := keys_sels (vs := r) fun w hw => h w (by simp [hw])
    refine ⟨s :: ss, .cons h1 h4, ?_, ?_⟩
    · intro sel hs
      rcases List.mem_cons.1 hs with rfl | hs
      exacts [h2, h5 _ hs]
    · intro w sel hs
      rcases List.mem_cons.1 hs with rfl | hs
      exacts [h3 w, h6 w _ hs]

private theorem both {s : Step} (hs : PlainStep s) : ∃ f, Both env s f := by
  cases hs with
  | wild =>
    refine ⟨kidsOf, fun v h => kidsOf_none h, ?_, ?_⟩
    · intro oracle hv p1 p2 q h1 h2 root hr vs he
      obtain ⟨parts, h3, h4⟩ := C11_wild env oracle p1 p2 q hv h1 h2 root vs he
      exact ⟨_, h4, allChildren_kids h3⟩
    · intro oracle hv p1 p2 q h1 h2 root hr vs he
      obtain ⟨l, parts, h3, h4, h5⟩ := C13_descent_wild env oracle p1 p2 q hv h1 h2 root vs he
      exact ⟨l, _, h3, h5, allChildren_kids h4⟩
  | member s =>
    refine ⟨memberOf s, fun v h => memberOf_none h, ?_, ?_⟩
    · intro oracle hv p1 p2 q h1 h2 root hr vs he
      exact ⟨_, C08_member env oracle p1 p2 q s _ (.inl rfl) h1 h2 root hr vs he, .refl _⟩
    · intro oracle hv p1 p2 q h1 h2 root hr vs he
      obtain ⟨l, h3, h4⟩ := C13_descent_partial env oracle p1 p2 q hv _ _ _ (.member s) h1 h2 root hr vs he (fun _ _ _ _ => trivial)
      exact ⟨l, _, h3, h4, .refl _⟩
  | index n =>
    refine ⟨indexOf false n.toInt, fun v h => indexOf_none h, ?_, ?_⟩
    · intro oracle hv p1 p2 q h1 h2 root hr vs he
      exact ⟨_, C09_dot_index env oracle p1 p2 q n h1 h2 root hr vs he, .refl _⟩
    · intro oracle hv p1 p2 q h1 h2 root hr vs he
      obtain ⟨l, h3, h4⟩ := C13_descent_partial env oracle p1 p2 q hv _ _ _ (.index n) h1 h2 root hr vs he (fun _ _ _ _ => trivial)
      exact ⟨l, _, h3, h4, .refl _⟩
  | select v h =>
    obtain ⟨sel, e1, e2, e3⟩ := key_sel h
    refine ⟨sel.of, fun v h => sel_none e2 h, ?_, ?_⟩
    · intro oracle hv p1 p2 q h1 h2 root hr vs he
      exact ⟨_, C12_single env oracle p1 p2 q v sel e1 h1 h2 root hr vs he (fun w _ => e3 w), .refl _⟩
    · intro oracle hv p1 p2 q h1 h2 root hr vs he
      obtain ⟨l, h3, h4⟩ := C13_descent_partial env oracle p1 p2 q hv _ _ _ (.select v sel e1) h1 h2 root hr vs he (fun _ _ w _ => e3 w)
      exact ⟨l, _, h3, h4, .refl _⟩
  | union args h =>
    obtain ⟨sels, e1, e2, e3⟩ := keys_sels h
    refine ⟨fun v => sels.flatMap fun s => s.of v, fun v h => ?_, ?_, ?_⟩
    · simp only [List.flatMap_eq_nil_iff]
      exact fun s hs => sel_none (e2 s hs) h
    · intro oracle hv p1 p2 q h1 h2 root hr vs he
      exact ⟨_, C12_union_partial env oracle p1 p2 q args sels e1 h1 h2 root hr vs he (fun w _ => e3 w), .refl _⟩
    · intro oracle hv p1 p2 q h1 h2 root hr vs he
      obtain ⟨l, h3, h4⟩ := C13_descent_partial env oracle p1 p2 q hv _ _ _ (.union args sels e1) h1 h2 root hr vs he (fun _ _ w _ => e3 w)
      exact ⟨l, _, h3, h4, .refl _⟩

/-- For names, integers, unions of these and `*`, `..s` selects what `.s` and `.*..s` select. -/
theorem C74_child_partial (s : Step) (hs : PlainStep s) : ChildLaw env s := by
  intro oracle hv p p1 p2 p3 p4 q h h1 h2 h3 h4 root hr vs he
  obtain ⟨f, hf⟩ := both env hs
  obtain ⟨l, a, hl, ha, hap⟩ := hf.nest hv h h1 hr he
  obtain ⟨b, hb, hbp⟩ := hf.plain hv h h2 hr he
  obtain ⟨parts, hp, hw⟩ := C11_wild env oracle p p3 q hv h h3 root vs he
  obtain ⟨l', c, hl', hc, hcp⟩ := hf.nest hv h3 h4 hr hw
  refine ⟨a, b, c, ha, hb, hc, hap.trans ((descent_split hf.none hl (allChildren_kids hp) hl').trans ?_)⟩
  exact hbp.symm.append hcp.symm

/-- They also select what `.s` and `..*.s` select. -/
theorem C74_star_partial (s : Step) (hs : PlainStep s) : StarLaw env s := by
  intro oracle hv p p1 p2 p3 p4 q h h1 h2 h3 h4 root hr vs he
  obtain ⟨f, hf⟩ := both env hs
  obtain ⟨l, a, hl, ha, hap⟩ := hf.nest hv h h1 hr he
  obtain ⟨b, hb, hbp⟩ := hf.plain hv h h2 hr he
  obtain ⟨l', parts, hl', hp, hw⟩ := C13_descent_wild env oracle p p3 q hv h h3 root vs he
  obtain ⟨c, hc, hcp⟩ := hf.plain hv h3 h4 hr hw
  refine ⟨a, b, c, ha, hb, hc, hap.trans ((descent_below hf.none hl hl' (allChildren_kids hp)).trans ?_)⟩
  exact hbp.symm.append hcp.symm

/-- `$.b..['c',0]` is `$.b['c',0]` and `$.b.*..['c',0]`. -/
example := C74_child_partial Ex.env _ (.union [.str (b! "c"), .int 0] (by
    intro v hv; simp at hv; rcases hv with rfl | rfl; exacts [.str _, .int _])) Oracle.id Ex.valid _ _ _ _ _ [⟨.member, [.name (b! "b")]⟩]
  ⟨⟨b! "$.b", rfl, rfl⟩, by decide⟩ ⟨⟨b! "$.b..['c',0]", rfl, rfl⟩, by decide⟩ ⟨⟨b! "$.b['c',0]", rfl, rfl⟩, by decide⟩
  ⟨⟨b! "$.b.*", rfl, rfl⟩, by decide⟩ ⟨⟨b! "$.b.*..['c',0]", rfl, rfl⟩, by decide⟩ Ex.doc Ex.doc_wf _ (run_of_runFuel 10 _ rfl)

/-- `$..a` is `$.a` and `$..*.a`. -/
example := C74_star_partial Ex.env _ (.member (b! "a")) Oracle.id Ex.valid _ _ _ _ _ [] ⟨⟨b! "$", rfl, rfl⟩, by decide⟩
  ⟨⟨b! "$..a", rfl, rfl⟩, by decide⟩ ⟨⟨b! "$.a", rfl, rfl⟩, by decide⟩ ⟨⟨b! "$..*", rfl, rfl⟩, by decide⟩
  ⟨⟨b! "$..*.a", rfl, rfl⟩, by decide⟩ Ex.doc Ex.doc_wf _ (run_of_runFuel 10 _ rfl)

end JP
