import Verif.Proof.RfcFilterText
import Verif.Proof.RfcUnique
import Verif.Proof.JsonEq
import Verif.Props.Operands
import Verif.Props.Values
import Verif.Props.Total
/-! Filters of RFC 9535, evaluated. -/
namespace JP.Rfc
open Spec F64

variable {env : Env} {oracle : Oracle} {root dot : V}

/-- The expression has the value, whatever has been evaluated before. -/
def Ev (env : Env) (oracle : Oracle) (root dot : V) (e : Expr) (v : V) : Prop := ∀ t, evalExpr env oracle root dot e t = .ok (v, t)

theorem Ev.two {op : Op} {e1 e2 : Expr} {a b r : V} (h : Yields2 env op a b r) (h1 : Ev env oracle root dot e1 a) (h2 : Ev env oracle root dot e2 b) :
    Ev env oracle root dot (.inner op [e1, e2]) r := fun t => h oracle root dot e1 e2 t t t (h1 t) (h2 t)

theorem Ev.one {op : Op} {e : Expr} {a r : V} (h : Yields1 env op a r) (h1 : Ev env oracle root dot e a) :
    Ev env oracle root dot (.inner op [e]) r := fun t => h oracle root dot e t t (h1 t)

/-- The value of an expression that may have none. -/
def orNothing (o : Option V) : V := o.getD .nothing

theorem int_ev {i : Int} (h : InRange i) : Ev env oracle root dot (intTree i) (.int (Int64.ofInt i)) := by
  unfold intTree
  split
  · refine Ev.one (a := .int (Int64.ofInt (-i))) ?_ (fun _ => rfl)
    rw [yields1_iff rfl]
    simp only [opNeg, isNothing, cvi, Bool.false_eq_true, if_false, V.int.injEq]
    rw [← Int64.toInt_inj, Int64.toInt_neg, toInt_ofInt (i := -i) ⟨by have := h.2; omega, by have := h.1; omega⟩, toInt_ofInt h]
    have := h.1
    have := h.2
    rw [Int.bmod_eq_of_le (by omega) (by omega)]
    omega
  · exact fun _ => rfl

/-! ### Singular queries -/

theorem selects_option {s : Single} {v : V} {l : List V} (h : Selects s.selector v l) : ∃ o : Option V, l = o.toList := by
  cases s <;> cases h
  all_goals first
    | exact ⟨none, rfl⟩
    | exact ⟨some _, rfl⟩

theorem selected_option (o : Option V) : selected o.toList = orNothing o := by cases o <;> rfl

theorem value_unique (hr : root.WF) (hd : dot.WF) {q : Singular} {o o' : Option V} (h : q.Value root dot o) (h' : q.Value root dot o') : o = o' := by
  have hp := gives_perm (by split; exact hr; exact hd) h h'
  cases o with
  | none => have := hp.nil_eq; cases o' with
    | none => rfl
    | some _ => cases this
  | some a => cases o' with
    | none => exact absurd hp.length_eq (by simp)
    | some b => have := List.singleton_perm_singleton.1 hp; rw [this]

theorem value_wf (hr : root.WF) (hd : dot.WF) {q : Singular} {v : V} (h : q.Value root dot (some v)) : v.WF :=
  gives_wf (by split; exact hr; exact hd) h v (by simp)

theorem value_snoc {r : Bool} {l : List Single} {s : Single} {v : V} {o : Option V} (h : Singular.Value root dot ⟨r, l⟩ (some v))
    (hs : Selects s.selector v o.toList) : Singular.Value root dot ⟨r, l ++ [s]⟩ o := by
  unfold Singular.Value at h ⊢
  simp only [List.map_append, List.map_cons, List.map_nil]
  have := Gives.segment (seg := .child [s.selector]) (ls := [o.toList]) h (.cons (.child ⟨[_], .cons hs .nil, by simp⟩) .nil)
  simpa using this

theorem value_none {r : Bool} {l : List Single} {s : Single} (h : Singular.Value root dot ⟨r, l⟩ none) :
    Singular.Value root dot ⟨r, l ++ [s]⟩ none := by
  unfold Singular.Value at h ⊢
  simp only [List.map_append, List.map_cons, List.map_nil]
  exact Gives.segment (seg := .child [s.selector]) (ls := []) h .nil

theorem single_ev {s : Single} (hs : s.Valid) {v : V} (hw : v.WF) (hu : s.Usual v) {e : Expr} (he : Ev env oracle root dot e v) :
    ∃ o : Option V, Selects s.selector v o.toList ∧ Ev env oracle root dot (singleTree e s) (orNothing o) := by
  cases s with
  | dot s =>
    have h := selects_member (s := s) hw
    obtain ⟨o, ho⟩ := selects_option (s := .dot s) h
    have hy := C50_dot_partial env v s hu hw
    rw [ho] at h hy
    rw [selected_option] at hy
    exact ⟨o, h, .two hy he (fun _ => rfl)⟩
  | name s =>
    have h := selects_member (s := s) hw
    obtain ⟨o, ho⟩ := selects_option (s := .name s) h
    have hy := C51_string_partial env v s hu hw
    rw [ho] at h hy
    rw [selected_option] at hy
    exact ⟨o, h, .two hy he (fun _ => rfl)⟩
  | index i =>
    have h := selects_index (i := i) (v := v) hu
    obtain ⟨o, ho⟩ := selects_option (s := .index i) h
    have hy := C51_int_partial env v _ (Int64.ofInt i) (.inl rfl) hw
    rw [toInt_ofInt hs, ho] at hy
    rw [ho] at h
    rw [selected_option] at hy
    exact ⟨o, h, .two hy he (int_ev hs)⟩

theorem single_nothing {s : Single} (hs : s.Valid) {e : Expr} (he : Ev env oracle root dot e .nothing) :
    Ev env oracle root dot (singleTree e s) .nothing := by
  cases s with
  | dot s => exact .two ((yields2_iff (op := .dot) rfl).2 (by simp [opDot, isNothing, V.nothing])) he (fun _ => rfl)
  | name s => exact .two ((yields2_ok (op := .index) rfl).2 (by simp [opIndex, isNothing, V.nothing])) he (fun _ => rfl)
  | index i => exact .two ((yields2_ok (op := .index) rfl).2 (by simp [opIndex, isNothing, V.nothing])) he (int_ev hs)

theorem singles_ev (hr : root.WF) (hd : dot.WF) {r : Bool} : ∀ (l l1 : List Single) {o : Option V} {e : Expr}, (∀ s ∈ l, s.Valid) →
    Singular.Usual root dot ⟨r, l1 ++ l⟩ → Singular.Value root dot ⟨r, l1⟩ o → Ev env oracle root dot e (orNothing o) →
    ∃ o', Singular.Value root dot ⟨r, l1 ++ l⟩ o' ∧ Ev env oracle root dot (l.foldl singleTree e) (orNothing o')
  | [], l1, o, e, _, _, h, he => ⟨o, by simpa using h, he⟩
  | s :: l, l1, o, e, hv, hu, h, he => by
    have hs := hv s (by simp)
    have next : ∃ o', Singular.Value root dot ⟨r, l1 ++ [s]⟩ o' ∧ Ev env oracle root dot (singleTree e s) (orNothing o') := by
      cases o with
      | none => exact ⟨none, value_none h, single_nothing hs he⟩
      | some v =>
        obtain ⟨o', h1, h2⟩ := single_ev hs (value_wf hr hd h) (hu l1 s l rfl v h) he
        exact ⟨o', value_snoc h h1, h2⟩
    obtain ⟨o', h1, h2⟩ := next
    have := singles_ev hr hd l (l1 ++ [s]) (fun s' hs' => hv s' (by simp [hs'])) (by simpa using hu) h1 h2
    simpa using this

theorem singular_ev (hr : root.WF) (hd : dot.WF) {q : Singular} (hv : q.Valid) (hu : q.Usual root dot) :
    ∃ o, q.Value root dot o ∧ Ev env oracle root dot (singularTree q) (orNothing o) := by
  have h0 : Singular.Value root dot ⟨q.fromRoot, []⟩ (some (if q.fromRoot then root else dot)) := .root
  have he : Ev env oracle root dot (if q.fromRoot then .root else .current) (orNothing (some (if q.fromRoot then root else dot))) := by
    intro t
    cases q.fromRoot <;> rfl
  exact singles_ev hr hd q.segs [] hv hu h0 he

theorem operand_ev (hr : root.WF) (hd : dot.WF) {a : Operand} (hv : a.Valid) (hu : a.Usual root dot) :
    ∃ o, a.Value root dot o ∧ Ev env oracle root dot (operandTree a) (orNothing o) := by
  cases a with
  | query q =>
    obtain ⟨o, h1, h2⟩ := singular_ev (env := env) (oracle := oracle) hr hd hv hu
    exact ⟨o, .query h1, h2⟩
  | lit l =>
    refine ⟨_, .lit l, ?_⟩
    cases l with
    | int i => exact int_ev hv
    | _ => exact fun _ => rfl

theorem operand_unique (hr : root.WF) (hd : dot.WF) {a : Operand} {o o' : Option V} (h : a.Value root dot o) (h' : a.Value root dot o') : o = o' := by
  cases h with
  | lit l => cases h'; rfl
  | query h => cases h' with | query h' => exact value_unique hr hd h h'

theorem operand_wf (hr : root.WF) (hd : dot.WF) {a : Operand} {v : V} (h : a.Value root dot (some v)) : v.WF := by
  cases h with
  | lit l => cases l <;> trivial
  | query h => exact value_wf hr hd h

/-! ### Comparisons -/

theorem number_coherent {a b : V} {x y : ℚ} (ha : IsNum a x) (hb : IsNum b y) (h : (IsInt a ∧ IsInt b) ∨ (Fits a ∧ Fits b)) :
    Coherent env a b (decide (x < y)) (decide (x = y)) (decide (y < x)) := by
  rcases h with ⟨h1, h2⟩ | ⟨h1, h2⟩
  · cases ha <;> cases h1 <;> cases hb <;> cases h2 <;> rename_i m n <;> (
      constructor
      · rw [yields2_ok rfl]
        simp [relation, isNothing, isSimple, isString, isFloat, cvi, Int64.lt_iff_toInt_lt]
      · rw [yields2_ok rfl]
        simp [eqVal, typeOf, eqNum, isFloat, cvi]
        rw [Bool.eq_iff_iff]
        simp [Int64.toInt_inj]
      · rw [yields2_ok rfl]
        simp [relation, isNothing, isSimple, isString, isFloat, cvi, Int64.lt_iff_toInt_lt]
      · rw [yields2_ok rfl]
        simp [relation, isNothing, isSimple, isString, isFloat, cvi, Int64.le_iff_toInt_le, le_iff_lt_or_eq]
      · rw [yields2_ok rfl]
        simp [relation, isNothing, isSimple, isString, isFloat, cvi, Int64.le_iff_toInt_le, le_iff_lt_or_eq, eq_comm]
      · simp only [Int.cast_lt, Int.cast_inj]
        rcases lt_trichotomy m.toInt n.toInt with h | h | h
        · exact .inl ⟨by simpa, by simp; omega, by simp; omega⟩
        · exact .inr (.inl ⟨by simp; omega, by simpa, by simp; omega⟩)
        · exact .inr (.inr ⟨by simp; omega, by simp; omega, by simpa⟩))
  · have key : ∀ {a : V} {x : ℚ}, IsNum a x → Fits a → ∃ n, arithmetic? a = some n ∧ n.Small ∧ n.Bounded ∧ n.exact = x := by
      intro a x ha h1
      cases ha with
      | gint n => exact ⟨_, rfl, h1, trivial, rfl⟩
      | int n => exact ⟨_, rfl, h1, trivial, rfl⟩
      | float f hf => exact ⟨_, rfl, trivial, hf, rfl⟩
    obtain ⟨n, h3, h4, h5, rfl⟩ := key ha h1
    obtain ⟨m, h6, h7, h8, rfl⟩ := key hb h2
    exact C75_line_partial env a b n m h3 h6 h4 h7 h5 h8

theorem string_unlike {s : Bytes} (h : NoNumber env s) (fp : Bool) : badNum env s fp = true := by
  unfold badNum
  rw [if_neg h.1, h.2.2, h.2.1]
  simp

/-- All comparisons of the values are false. -/
structure Unordered (env : Env) (a b : V) : Prop where
  eq : eqVal env a b = false
  rel : ∀ i f g, relation env a b i f g = .bool false
  notEqual : ¬ JsonEq a b
  notLess : ¬ Less a b
  notMore : ¬ Less b a

theorem less_type {a b : V} (h : Less a b) : typeOf a = typeOf b := by
  cases h with
  | number h1 h2 => rw [isNum_type h1, isNum_type h2]
  | string => rfl

theorem jsonEq_type {a b : V} (h : JsonEq a b) : typeOf a = typeOf b := by
  cases h with
  | number _ _ _ h1 h2 => rw [isNum_type h1, isNum_type h2]
  | _ => rfl

theorem unordered_of {a b : V} (ht : typeOf a ≠ typeOf b) (he : eqMixed env a b = false)
    (hr : ∀ i f g, relation env a b i f g = .bool false) : Unordered env a b where
  eq := by
    unfold eqVal
    rw [if_pos (by simpa using ht)]
    exact he
  rel := hr
  notEqual h := ht (jsonEq_type h)
  notLess h := ht (less_type h)
  notMore h := ht (less_type h).symm

theorem unlike_unordered {a b : V} (ha : a.WF) (hb : b.WF) (h : Unlike env a b) : Unordered env a b ∧ Unordered env b a := by
  cases h with
  | null hn =>
    cases b <;> simp [V.WF] at hb <;> simp at hn <;>
      exact ⟨unordered_of (by simp [typeOf]) rfl fun _ _ _ => rfl, unordered_of (by simp [typeOf]) rfl fun _ _ _ => rfl⟩
  | array => exact ⟨⟨rfl, fun _ _ _ => rfl, nofun, nofun, nofun⟩, ⟨rfl, fun _ _ _ => rfl, nofun, nofun, nofun⟩⟩
  | objectNumber h =>
    cases h <;> exact ⟨unordered_of (by simp [typeOf]) rfl fun _ _ _ => rfl, unordered_of (by simp [typeOf]) rfl fun _ _ _ => rfl⟩
  | objectString => exact ⟨unordered_of (by simp [typeOf]) rfl fun _ _ _ => rfl, unordered_of (by simp [typeOf]) rfl fun _ _ _ => rfl⟩
  | stringNumber hs h =>
    cases h <;> exact ⟨unordered_of (by simp [typeOf]) (if_pos (string_unlike hs _)) fun _ _ _ => rfl,
      unordered_of (by simp [typeOf]) (if_pos (string_unlike hs _)) fun _ _ _ => rfl⟩
  | stringBool hs =>
    exact ⟨unordered_of (by simp [typeOf]) (if_pos (string_unlike hs _)) fun _ _ _ => rfl,
      unordered_of (by simp [typeOf]) (if_pos (string_unlike hs _)) fun _ _ _ => rfl⟩

/-- What the operator makes of two values, and that it is what the RFC says. -/
def Agrees (env : Env) (op : CompOp) (x y : Option V) : Prop :=
  ∃ r, Yields2 env op.op (orNothing x) (orNothing y) r ∧ (truthy env r = true ↔ op.Holds x y)

theorem truthy_bool (b : Bool) : truthy env (.bool b) = b := by cases b <;> rfl

theorem agrees_bool {op : CompOp} {x y : Option V} {b : Bool} (h : Yields2 env op.op (orNothing x) (orNothing y) (.bool b))
    (hb : b = true ↔ op.Holds x y) : Agrees env op x y := ⟨_, h, by rw [truthy_bool, hb]⟩

theorem equal_some {a b : V} : Equal (some a) (some b) ↔ JsonEq a b := ⟨fun h => by cases h with | value h => exact h, .value⟩

theorem before_some {a b : V} : Before (some a) (some b) ↔ Less a b := ⟨fun h => by cases h with | value h => exact h, .value⟩

theorem agrees_coherent {op : CompOp} {a b : V} {lt eq gt : Bool} (h : Coherent env a b lt eq gt) (h1 : lt = true ↔ Less a b)
    (h2 : eq = true ↔ JsonEq a b) (h3 : gt = true ↔ Less b a) : Agrees env op (some a) (some b) := by
  cases op with
  | eq => exact agrees_bool h.yields_eq (by rw [h2]; exact equal_some.symm)
  | ne =>
    have he := (yields2_ok (op := .eq) rfl).1 h.yields_eq
    refine agrees_bool (b := !eq) ((yields2_ok (op := .ne) rfl).2 ?_) ?_
    · simp only [V.bool.injEq] at he ⊢
      rw [he]
      rfl
    · show _ ↔ ¬ Equal _ _
      rw [equal_some, ← h2]
      simp
  | lt => exact agrees_bool h.yields_lt (by rw [h1]; exact before_some.symm)
  | gt => exact agrees_bool h.yields_gt (by rw [h3]; exact before_some.symm)
  | le => exact agrees_bool h.yields_le (by rw [Bool.or_eq_true, h1, h2]; exact or_congr before_some.symm equal_some.symm)
  | ge => exact agrees_bool h.yields_ge (by rw [Bool.or_eq_true, h3, h2]; exact or_congr before_some.symm equal_some.symm)

theorem agrees_unordered {op : CompOp} {a b : V} (h : Unordered env a b) : Agrees env op (some a) (some b) := by
  have he : ¬ Equal (some a) (some b) := fun h' => h.notEqual (equal_some.1 h')
  have h1 : ¬ Before (some a) (some b) := fun h' => h.notLess (before_some.1 h')
  have h2 : ¬ Before (some b) (some a) := fun h' => h.notMore (before_some.1 h')
  cases op with
  | eq => exact agrees_bool (b := false) ((yields2_ok (op := .eq) rfl).2 (congrArg V.bool h.eq.symm)) (by simpa [CompOp.Holds] using he)
  | ne => exact agrees_bool (b := true) ((yields2_ok (op := .ne) rfl).2 (congrArg (fun b => V.bool !b) h.eq.symm)) (by simpa [CompOp.Holds] using he)
  | lt => exact agrees_bool (b := false) ((yields2_ok (op := .lt) rfl).2 (h.rel _ _ _).symm) (by simpa [CompOp.Holds] using h1)
  | gt => exact agrees_bool (b := false) ((yields2_ok (op := .gt) rfl).2 (h.rel _ _ _).symm) (by simpa [CompOp.Holds] using h2)
  | le => exact agrees_bool (b := false) ((yields2_ok (op := .le) rfl).2 (h.rel _ _ _).symm) (by simpa [CompOp.Holds] using ⟨h1, he⟩)
  | ge => exact agrees_bool (b := false) ((yields2_ok (op := .ge) rfl).2 (h.rel _ _ _).symm) (by simpa [CompOp.Holds] using ⟨h2, he⟩)

theorem agrees_eq {a b : V} (ha : a.WF) (hb : b.WF) (h : SameKinds a b) : Agrees env .eq (some a) (some b) ∧ Agrees env .ne (some a) (some b) := by
  have : eqVal env a b = true ↔ JsonEq a b := ⟨eq_jsonEq a b ha hb h, jsonEq_eq a b ha hb⟩
  refine ⟨agrees_bool (b := eqVal env a b) ((yields2_ok (op := .eq) rfl).2 rfl) (by rw [this]; exact equal_some.symm),
    agrees_bool (b := !eqVal env a b) ((yields2_ok (op := .ne) rfl).2 rfl) ?_⟩
  show _ ↔ ¬ Equal _ _
  rw [equal_some, ← this]
  simp

theorem agrees_usual {op : CompOp} {a b : V} (ha : a.WF) (hb : b.WF) (h : op.Usual env a b) : Agrees env op (some a) (some b) := by
  have un : ∀ {op : CompOp}, Unlike env a b ∨ Unlike env b a → Agrees env op (some a) (some b) := by
    rintro op (h | h)
    · exact agrees_unordered (unlike_unordered ha hb h).1
    · exact agrees_unordered (unlike_unordered hb ha h).2
  cases h with
  | eq h =>
    rcases h with h | h
    · exact (agrees_eq ha hb h).1
    · exact un h
  | ne h =>
    rcases h with h | h
    · exact (agrees_eq ha hb h).2
    · exact un h
  | number h1 h2 hk =>
    rename_i x y
    have hk' : (IsInt a ∧ IsInt b) ∨ (Fits a ∧ Fits b) := by
      cases hk with
      | number _ _ _ _ _ _ h => exact h
      | _ => cases h1
    refine agrees_coherent (number_coherent h1 h2 hk') ?_ ?_ ?_
    · rw [decide_eq_true_eq]
      refine ⟨fun h => .number h1 h2 h, fun h => ?_⟩
      cases h with
      | number h3 h4 h => rw [isNum_unique h1 h3, isNum_unique h2 h4]; exact h
      | string => cases h1
    · rw [decide_eq_true_eq]
      refine ⟨fun h => .number _ _ _ h1 (h ▸ h2), fun h => ?_⟩
      cases h with
      | number _ _ _ h3 h4 => rw [isNum_unique h1 h3, isNum_unique h2 h4]
      | _ => cases h1
    · rw [decide_eq_true_eq]
      refine ⟨fun h => .number h2 h1 h, fun h => ?_⟩
      cases h with
      | number h3 h4 h => rw [isNum_unique h1 h4, isNum_unique h2 h3]; exact h
      | string => cases h1
  | string =>
    refine agrees_coherent (C25_strings env _ _) ?_ ?_ ?_
    · rw [decide_eq_true_eq]
      refine ⟨.string, fun h => ?_⟩
      cases h with
      | number h => cases h
      | string h => exact h
    · rw [decide_eq_true_eq]
      refine ⟨fun h => h ▸ .str _, fun h => ?_⟩
      cases h with
      | number _ _ _ h => cases h
      | str => rfl
    · rw [decide_eq_true_eq]
      refine ⟨.string, fun h => ?_⟩
      cases h with
      | number h => cases h
      | string h => exact h
  | unlike h => exact un h

theorem nothing_not_truthy : truthy env .nothing = false := rfl

theorem agrees_usualO {op : CompOp} {x y : Option V} (hx : ∀ v, x = some v → v.WF) (hy : ∀ v, y = some v → v.WF) (h : op.UsualO env x y) :
    Agrees env op x y := by
  have he : ∀ {b : V}, b.WF → b ≠ .null → eqVal env .nothing b = false ∧ eqVal env b .nothing = false := by
    intro b hw hn
    cases b <;> simp [V.WF] at hw <;> simp at hn <;> exact ⟨rfl, rfl⟩
  have rl : ∀ {b : V} {i f g}, relation env .nothing b i f g = .nothing := fun {b i f g} => rfl
  have rr : ∀ {b : V} {i f g}, relation env b .nothing i f g = .nothing := by
    intro b i f g
    unfold relation
    simp [isNothing, V.nothing]
  cases h with
  | both h => exact agrees_usual (hx _ rfl) (hy _ rfl) h
  | left hn =>
    have := he (hy _ rfl) hn
    cases op with
    | eq => exact agrees_bool (b := false) ((yields2_ok (op := .eq) rfl).2 (congrArg V.bool this.1.symm)) (by simp [CompOp.Holds]; nofun)
    | ne => exact agrees_bool (b := true) ((yields2_ok (op := .ne) rfl).2 (congrArg (fun b => V.bool !b) this.1.symm)) (by simp [CompOp.Holds]; nofun)
    | lt => exact ⟨_, (yields2_ok (op := .lt) rfl).2 rl.symm, by simp [CompOp.Holds, nothing_not_truthy]; nofun⟩
    | gt => exact ⟨_, (yields2_ok (op := .gt) rfl).2 rl.symm, by simp [CompOp.Holds, nothing_not_truthy]; nofun⟩
    | le => exact ⟨_, (yields2_ok (op := .le) rfl).2 rl.symm, by simp [CompOp.Holds, nothing_not_truthy]; exact ⟨nofun, nofun⟩⟩
    | ge => exact ⟨_, (yields2_ok (op := .ge) rfl).2 rl.symm, by simp [CompOp.Holds, nothing_not_truthy]; exact ⟨nofun, nofun⟩⟩
  | right hn =>
    have := he (hx _ rfl) hn
    cases op with
    | eq => exact agrees_bool (b := false) ((yields2_ok (op := .eq) rfl).2 (congrArg V.bool this.2.symm)) (by simp [CompOp.Holds]; nofun)
    | ne => exact agrees_bool (b := true) ((yields2_ok (op := .ne) rfl).2 (congrArg (fun b => V.bool !b) this.2.symm)) (by simp [CompOp.Holds]; nofun)
    | lt => exact ⟨_, (yields2_ok (op := .lt) rfl).2 rr.symm, by simp [CompOp.Holds, nothing_not_truthy]; nofun⟩
    | gt => exact ⟨_, (yields2_ok (op := .gt) rfl).2 rr.symm, by simp [CompOp.Holds, nothing_not_truthy]; nofun⟩
    | le => exact ⟨_, (yields2_ok (op := .le) rfl).2 rr.symm, by simp [CompOp.Holds, nothing_not_truthy]; exact ⟨nofun, nofun⟩⟩
    | ge => exact ⟨_, (yields2_ok (op := .ge) rfl).2 rr.symm, by simp [CompOp.Holds, nothing_not_truthy]; exact ⟨nofun, nofun⟩⟩
  | neither h1 h2 =>
    cases op with
    | eq => exact agrees_bool (b := true) ((yields2_ok (op := .eq) rfl).2 rfl) (by simp [CompOp.Holds]; exact .empty)
    | ne => exact agrees_bool (b := false) ((yields2_ok (op := .ne) rfl).2 rfl) (by simp [CompOp.Holds]; exact .empty)
    | lt => exact ⟨_, (yields2_ok (op := .lt) rfl).2 rl.symm, by simp [CompOp.Holds, nothing_not_truthy]; nofun⟩
    | gt => exact ⟨_, (yields2_ok (op := .gt) rfl).2 rl.symm, by simp [CompOp.Holds, nothing_not_truthy]; nofun⟩
    | le => exact absurd rfl h1
    | ge => exact absurd rfl h2

/-! ### Logical expressions -/

theorem logical_ev (hr : root.WF) (hd : dot.WF) : ∀ (e : Logical), e.Valid → e.Usual env root dot →
    ∃ r, Ev env oracle root dot (logicalTree e) r ∧ (truthy env r = true ↔ e.Holds root dot)
  | .test q, hv, ⟨hu, ht⟩ => by
    obtain ⟨o, h1, h2⟩ := singular_ev (env := env) (oracle := oracle) hr hd hv hu
    refine ⟨_, h2, ?_⟩
    cases o with
    | none =>
      refine ⟨fun h => (by cases h), fun ⟨v, h⟩ => ?_⟩
      cases value_unique hr hd h1 h
    | some v =>
      refine ⟨fun _ => ⟨v, h1⟩, fun _ => ?_⟩
      obtain ⟨h3, h4⟩ := ht v h1
      have := mt (C22_truthy env v h4).1 h3
      rw [Bool.not_eq_false] at this
      exact this
  | .compare op a b, hv, ⟨ha, hb, hu⟩ => by
    obtain ⟨x, h1, h2⟩ := operand_ev (env := env) (oracle := oracle) hr hd hv.1 ha
    obtain ⟨y, h3, h4⟩ := operand_ev (env := env) (oracle := oracle) hr hd hv.2 hb
    obtain ⟨r, h5, h6⟩ := agrees_usualO (fun v h => operand_wf hr hd (h ▸ h1)) (fun v h => operand_wf hr hd (h ▸ h3)) (hu x y h1 h3)
    refine ⟨r, .two h5 h2 h4, h6.trans ⟨fun h => ⟨x, y, h1, h3, h⟩, ?_⟩⟩
    rintro ⟨x', y', h1', h3', h⟩
    rw [operand_unique hr hd h1 h1', operand_unique hr hd h3 h3']
    exact h
  | .not e, hv, hu => by
    obtain ⟨r, h1, h2⟩ := logical_ev hr hd e hv hu
    refine ⟨_, .one ((yields1_iff (op := .not) rfl).2 rfl) h1, ?_⟩
    show _ ↔ ¬ _
    rw [← h2, truthy_bool]
    have : truthy env r = cvb env r := by
      unfold truthy
      cases r <;> simp [isNothing, cvb]
    rw [this]
    simp
  | .and a b, hv, hu => by
    obtain ⟨r, h1, h2⟩ := logical_ev hr hd a hv.1 hu.1
    obtain ⟨s, h3, h4⟩ := logical_ev hr hd b hv.2 hu.2
    refine ⟨_, .two ((yields2_ok (op := .and) rfl).2 rfl) h1 h3, ?_⟩
    show _ ↔ _ ∧ _
    rw [← h2, ← h4]
    by_cases ht : truthy env r = true
    · have : opAnd env r s = s := by
        unfold truthy at ht
        unfold opAnd
        rw [if_neg (by simp at ht ⊢; exact ht)]
      rw [this]
      simp [ht]
    · have : opAnd env r s = r := by
        unfold truthy at ht
        unfold opAnd
        rw [if_pos (by simp at ht ⊢; by_cases h : isNothing r = true <;> simp_all)]
      rw [this]
      simp [ht]
  | .or a b, hv, hu => by
    obtain ⟨r, h1, h2⟩ := logical_ev hr hd a hv.1 hu.1
    obtain ⟨s, h3, h4⟩ := logical_ev hr hd b hv.2 hu.2
    refine ⟨_, .two ((yields2_ok (op := .or) rfl).2 rfl) h1 h3, ?_⟩
    show _ ↔ _ ∨ _
    rw [← h2, ← h4]
    by_cases ht : truthy env r = true
    · have : opOr env r s = r := by
        unfold truthy at ht
        unfold opOr
        rw [if_neg (by simp at ht ⊢; simp [ht]), if_pos ht]
      rw [this]
      simp [ht]
    · by_cases hn : isNothing r = true ∧ isNothing s = true
      · have : opOr env r s = .nothing := by
          unfold opOr
          rw [if_pos (by simpa using hn)]
        rw [this]
        have hs : truthy env s = false := by unfold truthy; rw [hn.2]; rfl
        simp [ht, nothing_not_truthy, hs]
      · have : opOr env r s = s := by
          unfold truthy at ht
          unfold opOr
          rw [if_neg (by simpa using hn), if_neg ht]
        rw [this]
        simp [ht]

/-! ### Filters -/

theorem visits_logical {s : Step} {e : Logical} (hop : s.op = .filter) (hargs : s.args = [.expr (logicalTree e)]) (hr : root.WF) (hv : e.Valid) :
    ∀ (l : List V), (∀ c ∈ l, c.WF ∧ e.Usual env root c) → ∀ (out : GoSlice) (t : Nat), ∃ out' kept,
    visits env oracle root s l out t = .ok (out', t) ∧ out'.elems = out.elems ++ kept ∧ Keeps (fun c b => b = true ↔ e.Holds root c) l kept
  | [], _, out, t => ⟨out, [], by unfold visits; rfl, by simp, .nil⟩
  | c :: l, h, out, t => by
    obtain ⟨r, h1, h2⟩ := logical_ev (env := env) (oracle := oracle) hr (h c (by simp)).1 e hv (h c (by simp)).2
    have step : ∀ out, visits env oracle root s (c :: l) out t =
        visits env oracle root s l (if truthy env r = true then out.append c else out) t := by
      intro out
      conv_lhs => unfold visits
      rw [hargs]
      simp only [evalVals, evalVal]
      rw [h1 t]
      simp [visit, hop, truthy]
    obtain ⟨out', kept, h3, h4, h5⟩ := visits_logical hop hargs hr hv l (fun c hc => h c (by simp [hc])) (if truthy env r = true then out.append c else out) t
    refine ⟨out', if truthy env r = true then c :: kept else kept, by rw [step, h3], ?_, ?_⟩
    · rw [h4]
      split
      · rw [GoSlice.elems_append]; simp
      · rfl
    · split
      · rename_i ht
        exact .keep (by simpa using h2.1 ht) h5
      · rename_i ht
        exact .drop (by simpa using fun hh => ht (h2.2 hh)) h5

theorem keeps_flatten {P : V → Bool → Prop} : ∀ {parts : List (List V)} {l : List V}, Keeps P parts.flatten l →
    ∃ ls, All2 (Keeps P) parts ls ∧ l = ls.flatten
  | [], l, h => by cases h; exact ⟨[], .nil, rfl⟩
  | p :: parts, l, h => by
    have cut : ∀ (a b : List V) {l : List V}, Keeps P (a ++ b) l → ∃ l1 l2, l = l1 ++ l2 ∧ Keeps P a l1 ∧ Keeps P b l2 := by
      intro a
      induction a with
      | nil => exact fun b l h => ⟨[], l, rfl, .nil, h⟩
      | cons x a ih =>
        intro b l h
        cases h with
        | keep h1 h2 =>
          obtain ⟨l1, l2, rfl, h3, h4⟩ := ih b h2
          exact ⟨_ :: l1, l2, rfl, .keep h1 h3, h4⟩
        | drop h1 h2 =>
          obtain ⟨l1, l2, rfl, h3, h4⟩ := ih b h2
          exact ⟨l1, l2, rfl, .drop h1 h3, h4⟩
    obtain ⟨l1, l2, rfl, h1, h2⟩ := cut p parts.flatten h
    obtain ⟨ls, h3, rfl⟩ := keeps_flatten h2
    exact ⟨l1 :: ls, .cons h1 h3, rfl⟩

theorem children_wf {v : V} (hw : v.WF) {l : List V} (h : Children v l) : ∀ c ∈ l, c.WF := selects_wf hw (s := .wild) (.wild h)

theorem all2_filters {e : Logical} : ∀ {vs : List V} {parts ls : List (List V)}, All2 Children vs parts →
    All2 (Keeps (fun c b => b = true ↔ e.Holds root c)) parts ls → All2 ((Part.child e).Applies root) vs ls
  | _, _, _, .nil, .nil => .nil
  | _, _, _, .cons h1 h2, .cons h3 h4 => .cons (.child ⟨_, h1, h3⟩) (all2_filters h2 h4)

theorem children_nil : ∀ {vs : List V} {parts : List (List V)}, All2 Children vs parts → parts.flatten = [] → ∀ v ∈ vs, Children v []
  | _, _, .cons h1 h2, h, v, hv => by
    rw [List.flatten_cons, List.append_eq_nil_iff] at h
    rcases List.mem_cons.1 hv with rfl | hv
    · rw [h.1] at h1; exact h1
    · exact children_nil h2 h.2 v hv

theorem filter_eval (hv : oracle.Valid) {p1 p2 : JSONPath} {ss : Path} {e : Logical} (hval : e.Valid)
    (h1 : IsCompiled env p1 ss) (h2 : IsCompiled env p2 (ss ++ [⟨.filter, [.expr (logicalTree e)]⟩])) (hr : root.WF) {vs : List V}
    (he : Eval env oracle p1 root = some (.ok (some vs))) (hu : (Part.child e).Usual env root vs) :
    ∃ ls, All2 ((Part.child e).Applies root) vs ls ∧ Eval env oracle p2 root = some (.ok (some ls.flatten)) := by
  have hwf := eval_wf hr h1 he
  obtain ⟨out, t, rfl, h⟩ := eval_snoc h1 h2 he
  obtain ⟨parts, hp, hst⟩ := stepping_spec (hv t) out.elems 0
  have hstep : evalStep env oracle root ⟨.filter, [.expr (logicalTree e)]⟩ out t =
    loop env oracle root ⟨.filter, [.expr (logicalTree e)]⟩ (stepping (oracle t) 0 out.elems) out (t + 1) := rfl
  rw [hstep, hst] at h
  unfold loop at h
  rw [h]
  by_cases hem : out.elems.isEmpty = true
  · rw [if_pos hem]
    rw [List.isEmpty_iff] at hem
    rw [hem] at hp ⊢
    cases hp
    exact ⟨[], .nil, by simp [stepResult, hem]⟩
  rw [if_neg hem]
  unfold visited
  by_cases hf : parts.flatten = []
  · have hno := hu.2 (by simpa using hem) (children_nil hp hf)
    obtain ⟨out', kept, h3, h4, h5⟩ := visits_logical (s := ⟨.filter, [.expr (logicalTree e)]⟩) (oracle := oracle) rfl rfl hr hval [.null]
      (fun c hc => by rw [List.mem_singleton.1 hc]; exact ⟨by simp [V.WF], hno.1⟩) (some []) (t + 1)
    have hk : kept = [] := by
      cases h5 with
      | keep h => exact absurd (h.1 rfl) hno.2
      | drop _ h => cases h; rfl
    refine ⟨parts, all2_filters hp ?_, ?_⟩
    · clear hp hst h
      induction parts with
      | nil => exact .nil
      | cons p r ih =>
        rw [List.flatten_cons, List.append_eq_nil_iff] at hf
        rw [hf.1]
        exact .cons .nil (ih hf.2)
    · rw [hf, if_pos (by rfl), h3]
      unfold stepResult
      rw [Res.bind_ok]
      show some (Res.ok (some out'.elems)) = _
      rw [h4, hk]
      rfl
  · rw [if_neg (by simpa using hf)]
    obtain ⟨out', kept, h3, h4, h5⟩ := visits_logical (s := ⟨.filter, [.expr (logicalTree e)]⟩) (oracle := oracle) rfl rfl hr hval parts.flatten
      (fun c hc => by
        obtain ⟨cs, hcs, hc⟩ := List.mem_flatten.1 hc
        obtain ⟨v, hm, h⟩ := hp.mem_right hcs
        exact ⟨children_wf (hwf v hm) h c hc, hu.1 v hm cs h c hc⟩) (some []) (t + 1)
    obtain ⟨ls, h6, rfl⟩ := keeps_flatten h5
    refine ⟨ls, all2_filters hp h6, ?_⟩
    rw [h3]
    unfold stepResult
    rw [Res.bind_ok]
    show some (Res.ok (some out'.elems)) = _
    rw [h4]
    rfl

/-! ### Places of what is found -/

theorem children_at {v : V} {l : List V} (h : Children v l) : ∀ x ∈ l, ∃ p, At v p x := by
  intro x hx
  cases h with
  | arr =>
    obtain ⟨i, hi⟩ := List.getElem?_of_mem hx
    exact ⟨_, .elem hi (.here _)⟩
  | obj _ _ hp =>
    obtain ⟨kv, hkv, rfl⟩ := List.mem_map.1 (hp.mem_iff.1 hx)
    exact ⟨_, .member hkv (.here _)⟩
  | other => cases hx

theorem selects_at {s : Selector} {v : V} {l : List V} (h : Selects s v l) : ∀ x ∈ l, ∃ p, At v p x := by
  have mem : ∀ {xs : List V} {x : V}, x ∈ xs → ∃ p, At (.arr xs) p x := fun {xs x} hx => children_at (.arr xs) x hx
  cases h with
  | member hx =>
    intro x hm
    rw [List.mem_singleton.1 hm]
    exact ⟨_, .member hx (.here _)⟩
  | wild h => exact children_at h
  | element _ hx =>
    intro x hm
    rw [List.mem_singleton.1 hm]
    exact ⟨_, .elem hx (.here _)⟩
  | up _ hu => exact fun x hx => mem (upward_mem hu x hx)
  | down _ hu => exact fun x hx => mem (downward_mem hu x hx)
  | _ => intro x hx; cases hx

theorem bracketed_at {sels : List Selector} {v : V} {l : List V} (h : Bracketed sels v l) : ∀ x ∈ l, ∃ p, At v p x := by
  obtain ⟨ls, h1, rfl⟩ := h
  intro x hx
  obtain ⟨l, hl, hx⟩ := List.mem_flatten.1 hx
  obtain ⟨s, _, h⟩ := h1.mem_right hl
  exact selects_at h x hx

theorem keeps_mem {P : V → Bool → Prop} {vs l : List V} (h : Keeps P vs l) : ∀ x ∈ l, x ∈ vs := by
  induction h with
  | nil => exact fun _ h => h
  | keep _ _ ih =>
    intro x hx
    rcases List.mem_cons.1 hx with rfl | hx
    · simp
    · simp [ih x hx]
  | drop _ _ ih => exact fun x hx => by simp [ih x hx]

theorem filters_at {e : Logical} {v : V} {l : List V} (h : Filters root e v l) : ∀ x ∈ l, ∃ p, At v p x := by
  obtain ⟨cs, h1, h2⟩ := h
  exact fun x hx => children_at h1 x (keeps_mem h2 x hx)

theorem part_at {part : Part} {v : V} {l : List V} (h : part.Applies root v l) : ∀ x ∈ l, ∃ p, At v p x := by
  cases h with
  | plain h =>
    cases h with
    | child h => exact bracketed_at h
    | descend h1 h2 =>
      intro x hx
      obtain ⟨l, hl, hx⟩ := List.mem_flatten.1 hx
      obtain ⟨d, hd, h⟩ := h2.mem_right hl
      obtain ⟨p, hp⟩ := bracketed_at h x hx
      exact ⟨_, ((h1.1 d.1 d.2).1 hd).trans hp⟩
  | child h => exact filters_at h
  | descend h1 h2 =>
    intro x hx
    obtain ⟨l, hl, hx⟩ := List.mem_flatten.1 hx
    obtain ⟨d, hd, h⟩ := h2.mem_right hl
    obtain ⟨p, hp⟩ := filters_at h x hx
    exact ⟨_, ((h1.1 d.1 d.2).1 hd).trans hp⟩

theorem finds_at {q : List Part} {l : List V} (h : Finds root q l) : ∀ x ∈ l, ∃ p, At root p x := by
  induction h with
  | root => intro x hx; rw [List.mem_singleton.1 hx]; exact ⟨[], .here _⟩
  | part _ h2 ih =>
    intro x hx
    obtain ⟨l, hl, hx⟩ := List.mem_flatten.1 hx
    obtain ⟨v, hv, h⟩ := h2.mem_right hl
    obtain ⟨p, hp⟩ := ih v hv
    obtain ⟨p', hp'⟩ := part_at h x hx
    exact ⟨_, hp.trans hp'⟩

/-! ### Only the order may differ -/

theorem keeps_holds {P : V → Prop} {vs l : List V} (h : Keeps (fun c b => b = true ↔ P c) vs l) : Keeps (fun c b => b = true ↔ P c) vs l ∧
    ∀ [DecidablePred P], l = vs.filter (fun c => decide (P c)) := by
  refine ⟨h, ?_⟩
  intro _
  induction h with
  | nil => rfl
  | keep h _ ih => rw [List.filter_cons, if_pos (by simpa using h), ih]
  | drop h _ ih => rw [List.filter_cons, if_neg (by simpa using h), ih]

theorem keeps_perm {P : V → Prop} {vs vs' l l' : List V} (hp : vs.Perm vs') (h : Keeps (fun c b => b = true ↔ P c) vs l)
    (h' : Keeps (fun c b => b = true ↔ P c) vs' l') : l.Perm l' := by
  haveI : DecidablePred P := fun _ => Classical.propDecidable _
  rw [(keeps_holds h).2, (keeps_holds h').2]
  exact hp.filter _

theorem filters_perm {e : Logical} {v : V} (hw : v.WF) {l l' : List V} (h : Filters root e v l) (h' : Filters root e v l') : l.Perm l' := by
  obtain ⟨cs, h1, h2⟩ := h
  obtain ⟨cs', h1', h2'⟩ := h'
  exact keeps_perm (selects_perm hw (s := .wild) (.wild h1) (.wild h1')) h2 h2'

theorem part_perm {part : Part} {v : V} (hw : v.WF) {l l' : List V} (h : part.Applies root v l) (h' : part.Applies root v l') : l.Perm l' := by
  cases h with
  | plain h => cases h' with | plain h' => exact applies_perm hw h h'
  | child h => cases h' with | child h' => exact filters_perm hw h h'
  | descend h1 h2 =>
    cases h' with
    | descend h1' h2' =>
      exact all2_perm_left (visits_perm h1 h1') (fun d hd l l' => filters_perm (hw.at ((h1.1 d.1 d.2).1 hd))) h2 h2'

theorem finds_perm (hw : root.WF) {q : List Part} {l l' : List V} (h : Finds root q l) (h' : Finds root q l') : l.Perm l' := by
  induction h generalizing l' with
  | root =>
    generalize hq : ([] : List Part) = q0 at h'
    cases h' with
    | root => exact .refl _
    | part => exact absurd hq (by simp)
  | @part q part vs ls h1 h2 ih =>
    generalize hq : q ++ [part] = q0 at h'
    cases h' with
    | root => exact absurd hq (by simp)
    | part h1' h2' =>
      obtain ⟨rfl, hs⟩ := List.append_inj' hq rfl
      cases (List.cons.inj hs).1
      have hwf : ∀ v ∈ vs, v.WF := fun v hv => by
        obtain ⟨p, hp⟩ := finds_at h1 v hv
        exact hw.at hp
      exact all2_perm_left (ih h1') (fun v hv l l' => part_perm (hwf v hv)) h2 h2'

/-! ### Whole queries -/

theorem parts_eval (hv : oracle.Valid) (hr : root.WF) : ∀ (n : Nat) (q : List Part), q.length = n → (∀ part ∈ q, part.Valid) →
    PartsUsual env root q → ∀ (ss : Path) (text : Bytes), All2 PartStep q ss → parsePath env text = .ok ss → text.length ≤ 3 * 2 ^ 20 →
    ∃ p res, Compile env text = .ok p ∧ IsCompiled env p ss ∧ Eval env oracle p root = some (.ok (some res)) ∧ Finds root q res := by
  intro n
  induction n with
  | zero =>
    intro q hn _ _ ss text ha hp hl
    cases List.length_eq_zero_iff.1 hn
    cases ha
    obtain ⟨p, hc, hi⟩ := compiled_of_parse hp hl
    exact ⟨p, [root], hc, hi, by rw [hi.eval]; rfl, .root⟩
  | succ n ih =>
    intro q hn hq hu ss text ha hp hl
    obtain ⟨q', part, rfl⟩ : ∃ q' part, q = q' ++ [part] := by
      rcases List.eq_nil_or_concat q with rfl | ⟨q', part, rfl⟩
      · cases hn
      · exact ⟨q', part, by simp⟩
    obtain ⟨ss, st, rfl, ha1, ha2⟩ := all2_snoc ha
    obtain ⟨a, r, rfl, hp1, _⟩ := parsePath_cut hp
    obtain ⟨p2, hc2, hi2⟩ := compiled_of_parse hp hl
    obtain ⟨p1, vs, hc1, hi1, he1, hg1⟩ := ih q' (by simpa using hn) (fun part hs => hq part (by simp [hs]))
      (fun q1 part' q2 he => hu q1 part' (q2 ++ [part]) (by rw [he]; simp)) ss a ha1 hp1 (by rw [List.length_append] at hl; omega)
    have hu' := hu q' part [] rfl vs hg1
    cases ha2 with
    | plain hs =>
      obtain ⟨ls, h3, h4⟩ := segment_eval hv hs hi1 hi2 hr he1 (finds_at hg1) (hq (.plain _) (by simp)).2 hu'.2.1 hu'.2.2
      exact ⟨p2, _, hc2, hi2, h4, .part hg1 (h3.mono fun v l h => .plain h)⟩
    | child =>
      obtain ⟨ls, h3, h4⟩ := filter_eval hv (hq (.child _) (by simp)) hi1 hi2 hr he1 hu'
      exact ⟨p2, _, hc2, hi2, h4, .part hg1 h3⟩

end JP.Rfc
