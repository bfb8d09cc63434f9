import Verif.Proof.ParseTotal
import Verif.Proof.Code
/-! The path parser and the compiler: total, no panic, well-formed trees. -/
set_option linter.unusedSimpArgs false
namespace JP
variable {env : Env} {text : Bytes}

theorem mu_fuel (s : LState) : 8 * mu s + 3 ≤ exprFuel s := by
  have := mu_le_rest s
  unfold exprFuel; omega

theorem wp_fuel {α : Type} {g : Nat → P α} {n : LState → Nat} {Q : α → LState → Prop} {E : PErr → Prop} {s : LState}
    (h : wp (g (n s)) Q E s) : wp (fun s => g (n s) s) Q E s := by
  unfold wp at h ⊢; exact h

theorem parseScriptExpr_ok {s : LState} (hs : Inv env text s) :
    wp (parseScriptExpr env) (ExprPost env text (mu s)) (PErr.In text) s := by
  unfold parseScriptExpr
  exact wp_fuel (g := fun n => pExpr env n 0) (n := exprFuel) (pExpr_ok (exprFuel s) 0 s (by omega) hs (mu_fuel s))

theorem pParenExpr_ok {s : LState} (hs : Inv env text s) :
    wp (pParenExpr env) (ExprPost env text (mu s)) (PErr.In text) s := by
  unfold pParenExpr
  refine wp_bind (wp_mono (parseScriptExpr_ok hs) ?_)
  rintro e s1 ⟨h1, h2, h3⟩
  refine wp_bind (wp_mono (expect_ok (by simp) (lexPathP_ok h1)) ?_)
  rintro _ s2 ⟨h4, h5, _⟩
  exact wp_pure ⟨h4, by omega, h3⟩

/-- A result that uses up at least one token, and as many as its size. -/
def PPost {α : Type} (env : Env) (text : Bytes) (n : Nat) (z : α → Nat) (A : α → Prop) (a : α) (s' : LState) : Prop :=
  Inv env text s' ∧ mu s' < n ∧ z a + mu s' ≤ n ∧ A a

/-- Size of an optional argument. -/
def optSize : Option Val → Nat
  | none => 0
  | some v => v.size

/-- Size of the arguments of several steps. -/
def stepsSize : List Step → Nat
  | [] => 0
  | s :: r => Vals.size s.args + stepsSize r

theorem Vals.size_append (a b : List Val) : Vals.size (a ++ b) = Vals.size a + Vals.size b := by
  induction a with
  | nil => simp [Vals.size]
  | cons x a ih => simp [Vals.size, ih]; omega

theorem Path.size_append (a b : Path) : Path.size (a ++ b) = Path.size a + Path.size b := by
  induction a with
  | nil => simp [Path.size]
  | cons x a ih => simp only [List.cons_append, Path.size, ih]; omega

theorem pMember_ok {s : LState} (hs : Inv env text s) :
    wp (pMember env) (PPost env text (mu s) optSize (fun m => ∀ v, m = some v → v.WF)) (PErr.In text) s := by
  unfold pMember
  refine wp_bind (wp_mono (lexPathP_ok hs) ?_)
  intro lx s1 h1
  split
  · next er her => exact wp_fail (h1.good.errIn er her)
  · next her =>
    split
    · next ht => exact wp_pure ⟨h1.inv, h1.lt (by simp [ht]) her, by have := h1.lt (by simp [ht]) her; simp only [optSize]; omega, by simp⟩
    split
    · next ht =>
      refine wp_bind (str_ok (h1.good.str (.inl ht)) ?_)
      intro x _
      exact wp_pure ⟨h1.inv, h1.lt (by simp [ht]) her, by have := h1.lt (by simp [ht]) her; simp only [optSize, Val.size]; omega, by rintro v ⟨⟩; trivial⟩
    split
    · next ht =>
      refine wp_bind (int_ok (h1.good.int ht) ?_)
      intro x _
      exact wp_pure ⟨h1.inv, h1.lt (by simp [ht]) her, by have := h1.lt (by simp [ht]) her; simp only [optSize, Val.size]; omega, by rintro v ⟨⟩; trivial⟩
    split
    · next ht =>
      have := h1.lt (by simp [ht]) her
      refine wp_bind (wp_mono (pParenExpr_ok h1.inv) ?_)
      rintro e s2 ⟨h2, h3, h4⟩
      exact wp_pure ⟨h2, by have := e.size_pos; omega, by simp only [optSize, Val.size]; omega, by rintro v ⟨⟩; exact h4⟩
    · exact wp_bind (wp_offset (wp_fail h1.inv.offset))

theorem pSliceVal_ok {s : LState} (hs : Inv env text s) :
    wp (pSliceVal env) (PPost env text (mu s) (fun _ => 1) (fun _ => True)) (PErr.In text) s := by
  unfold pSliceVal
  refine wp_bind (wp_mono (lexPathP_ok hs) ?_)
  intro lx s1 h1
  split
  · next ht =>
    have := h1.le
    refine wp_bind (wp_mono (pParenExpr_ok h1.inv) ?_)
    rintro e s2 ⟨h2, h3, h4⟩
    have := e.size_pos
    exact wp_pure ⟨h2, by omega, by show 1 + _ ≤ _; omega, trivial⟩
  split
  · next ht =>
    have herr := h1.good.err_none (by simp [ht])
    refine wp_bind (int_ok (h1.good.int ht) ?_)
    intro x _
    exact wp_pure ⟨h1.inv, h1.lt (by simp [ht]) herr, by have := h1.lt (by simp [ht]) herr; show 1 + _ ≤ _; omega, trivial⟩
  · exact wp_bind (wp_offset (wp_fail h1.inv.offset))

theorem pSlice_ok {s : LState} (st : Option Bound) (hs : Inv env text s) :
    wp (pSlice env st) (fun x s' => Inv env text s' ∧ mu s' ≤ mu s ∧ ∃ sl, x = ⟨.select, [.slice sl]⟩)
      (PErr.In text) s := by
  unfold pSlice
  dsimp only
  refine wp_bind (wp_mono (lookPath_ok hs) ?_)
  intro t s1 h1
  have hm1 := h1.mu
  split
  · exact wp_pure ⟨h1.inv, hm1, _, rfl⟩
  · have hk : ∀ (stop : Option Bound) s2, Inv env text s2 → mu s2 ≤ mu s →
        wp (do
          let t ← lookPath env
          if t = .ch (c! ']') ∨ t = .ch (c! ',') then pure (⟨.select, [.slice ⟨st, stop, none⟩]⟩ : Step)
          else if t = .ch (c! ':') then do
            let _ ← lexPathP env
            let tok ← lookPath env
            if tok = .ch (c! ',') ∨ tok = .ch (c! ']') then pure ⟨.select, [.slice ⟨st, stop, none⟩]⟩
            else do
              let e ← pSliceVal env
              pure ⟨.select, [.slice ⟨st, stop, some e⟩]⟩
          else do
            let t ← lookPath env
            let off ← P.offset
            P.fail (.unexpectedTokenAt t off))
          (fun x s' => Inv env text s' ∧ mu s' ≤ mu s ∧ ∃ sl, x = ⟨.select, [.slice sl]⟩) (PErr.In text) s2 := by
      intro stop s2 hi2 hm2
      refine wp_bind (wp_mono (lookPath_ok hi2) ?_)
      intro t3 s3 h3
      have hm3 := h3.mu
      split
      · exact wp_pure ⟨h3.inv, by omega, _, rfl⟩
      split
      · refine wp_bind (wp_mono (lexPathP_ok h3.inv) ?_)
        intro lx s4 h4
        have hm4 := h4.le
        refine wp_bind (wp_mono (lookPath_ok h4.inv) ?_)
        intro t5 s5 h5
        have hm5 := h5.mu
        split
        · exact wp_pure ⟨h5.inv, by omega, _, rfl⟩
        · refine wp_bind (wp_mono (pSliceVal_ok h5.inv) ?_)
          rintro e s6 ⟨h6, h7, _, _⟩
          exact wp_pure ⟨h6, by omega, _, rfl⟩
      · refine wp_bind (wp_mono (lookPath_ok h3.inv) ?_)
        intro t6 s6 h6
        exact wp_bind (wp_offset (wp_fail h6.inv.offset))
    split
    · refine wp_bind (wp_mono (pSliceVal_ok h1.inv) ?_)
      rintro e s2 ⟨h2, h3, _, _⟩
      exact wp_bind (wp_pure (hk _ s2 h2 (by omega)))
    · exact wp_bind (wp_pure (hk _ s1 h1.inv hm1))

/-- What `parseVal` can return. -/
def VStep (x : Step) : Prop :=
  x = ⟨.wild, []⟩ ∨ (∃ e, x = ⟨.exp, [.expr e]⟩ ∧ e.WF) ∨ (∃ e, x = ⟨.filter, [.expr e]⟩ ∧ e.WF) ∨
  (∃ sl, x = ⟨.select, [.slice sl]⟩) ∨ (∃ n, x = ⟨.int, [.int n]⟩) ∨ (∃ s, x = ⟨.string, [.str s]⟩) ∨
  (∃ s, x = ⟨.id, [.name s]⟩)

theorem pVal_ok {s : LState} (hs : Inv env text s) :
    wp (pVal env) (PPost env text (mu s) (fun x => Vals.size x.args) (VStep)) (PErr.In text) s := by
  unfold pVal
  refine wp_bind (wp_mono (lexPathP_ok hs) ?_)
  intro lx s1 h1
  have hk : ∀ (b : Bound) (x : Step) (s2 : LState), Inv env text s2 → mu s2 < mu s → Vals.size x.args + mu s2 ≤ mu s → VStep x →
      wp (do
        let t ← lookPath env
        if t = .ch (c! ':') then do
          let _ ← lexPathP env
          pSlice env (some b)
        else pure x) (PPost env text (mu s) (fun x => Vals.size x.args) (VStep)) (PErr.In text) s2 := by
    intro b x s2 hi2 hm2 hz hx
    refine wp_bind (wp_mono (lookPath_ok hi2) ?_)
    intro t s3 h3
    have hm3 := h3.mu
    split
    · refine wp_bind (wp_mono (lexPathP_ok h3.inv) ?_)
      intro lx s4 h4
      have hm4 := h4.le
      refine wp_mono (pSlice_ok _ h4.inv) ?_
      rintro y s5 ⟨h5, h6, sl, rfl⟩
      exact ⟨h5, by omega, by simp only [Vals.size, Val.size]; omega, .inr (.inr (.inr (.inl ⟨sl, rfl⟩)))⟩
    · exact wp_pure ⟨h3.inv, by omega, by show Vals.size x.args + _ ≤ _; omega, hx⟩
  split
  · next er her => exact wp_fail (h1.good.errIn er her)
  · next her =>
    split
    · next ht => exact wp_pure ⟨h1.inv, h1.lt (by simp [ht]) her, by have := h1.lt (by simp [ht]) her; simp only [Vals.size, Val.size]; omega, .inl rfl⟩
    split
    · next ht =>
      have := h1.lt (by simp [ht]) her
      refine wp_bind (wp_mono (pParenExpr_ok h1.inv) ?_)
      rintro e s2 ⟨h2, h3, h4⟩
      have hpos := e.size_pos
      exact hk _ _ s2 h2 (by omega) (by simp only [Vals.size, Val.size]; omega) (.inr (.inl ⟨e, rfl, h4⟩))
    split
    · next ht =>
      have := h1.lt (by simp [ht]) her
      refine wp_mono (pSlice_ok _ h1.inv) ?_
      rintro y s5 ⟨h5, h6, sl, rfl⟩
      exact ⟨h5, by omega, by simp only [Vals.size, Val.size]; omega, .inr (.inr (.inr (.inl ⟨sl, rfl⟩)))⟩
    split
    · next ht =>
      have := h1.lt (by simp [ht]) her
      refine wp_bind (wp_mono (pParenExpr_ok h1.inv) ?_)
      rintro e s2 ⟨h2, h3, h4⟩
      have hpos := e.size_pos
      exact wp_pure ⟨h2, by omega, by simp only [Vals.size, Val.size]; omega, .inr (.inr (.inl ⟨e, rfl, h4⟩))⟩
    split
    · next ht =>
      have := h1.lt (by simp [ht]) her
      refine wp_bind (int_ok (h1.good.int ht) ?_)
      intro n _
      exact hk _ _ s1 h1.inv (by omega) (by simp only [Vals.size, Val.size]; omega) (.inr (.inr (.inr (.inr (.inl ⟨n, rfl⟩)))))
    split
    · next ht =>
      refine wp_bind (str_ok (h1.good.str (.inr (.inl ht))) ?_)
      intro x _
      exact wp_pure ⟨h1.inv, h1.lt (by simp [ht]) her, by have := h1.lt (by simp [ht]) her; simp only [Vals.size, Val.size]; omega, .inr (.inr (.inr (.inr (.inr (.inl ⟨x, rfl⟩)))))⟩
    split
    · next ht =>
      refine wp_bind (str_ok (h1.good.str (.inl ht)) ?_)
      intro x _
      exact wp_pure ⟨h1.inv, h1.lt (by simp [ht]) her, by have := h1.lt (by simp [ht]) her; simp only [Vals.size, Val.size]; omega, .inr (.inr (.inr (.inr (.inr (.inr ⟨x, rfl⟩)))))⟩
    · exact wp_bind (wp_offset (wp_fail h1.inv.offset))

theorem pValList_ok : ∀ (f : Nat) (s : LState), Inv env text s → mu s + 1 ≤ f →
    wp (pValList env f) (PPost env text (mu s) stepsSize (fun vs => vs ≠ [] ∧ ∀ v ∈ vs, VStep v)) (PErr.In text) s
  | 0, _, _, h => by omega
  | f + 1, s, hs, hf => by
    unfold pValList
    refine wp_bind (wp_mono (pVal_ok hs) ?_)
    rintro v s1 ⟨h1, h2, hz, h3⟩
    replace hz : Vals.size v.args + mu s1 ≤ mu s := hz
    refine wp_bind (wp_mono (lookPath_ok h1) ?_)
    intro t s2 h4
    have := h4.mu
    split
    · exact wp_pure ⟨h4.inv, by omega, by simp only [stepsSize]; omega, by simp, by simpa using h3⟩
    · refine wp_bind (wp_mono (lexPathP_ok h4.inv) ?_)
      intro lx s3 h5
      have := h5.le
      refine wp_bind (wp_mono (pValList_ok f s3 h5.inv (by omega)) ?_)
      rintro vs s4 ⟨h6, h7, hz2, h8, h9⟩
      exact wp_pure ⟨h6, by omega, by simp only [stepsSize]; omega, by simp, by
        intro w hw
        rcases List.mem_cons.1 hw with rfl | hw
        · exact h3
        · exact h9 w hw⟩

theorem VStep.notInUnion : ∀ {steps : List Step}, (∀ v ∈ steps, VStep v) → notInUnion steps = none →
    ∃ args, unionArgs steps = some args ∧ args.length = steps.length ∧ Vals.size args = stepsSize steps ∧ ∀ v ∈ args, v.WF
  | [], _, _ => ⟨[], rfl, rfl, rfl, by simp⟩
  | s :: r, h, hn => by
    unfold JP.notInUnion at hn
    split at hn
    · cases hn
    · next hop =>
      obtain ⟨args, h1, h2, hz, h3⟩ := VStep.notInUnion (steps := r) (fun v hv => h v (by simp [hv])) hn
      have hs := h s (by simp)
      rcases hs with rfl | ⟨e, rfl, _⟩ | ⟨e, rfl, _⟩ | ⟨sl, rfl⟩ | ⟨n, rfl⟩ | ⟨x, rfl⟩ | ⟨x, rfl⟩
      · simp at hop
      · simp at hop
      · simp at hop
      all_goals
        refine ⟨_ :: args, by simp [unionArgs, h1]; rfl, by simp [h2], by simp [Vals.size, Val.size, stepsSize, hz], ?_⟩
        intro w hw
        rcases List.mem_cons.1 hw with rfl | hw
        · trivial
        · exact h3 w hw

/-- What a subscript can be. -/
def SubStep (x : Step) : Prop :=
  (∀ v ∈ x.args, v.WF) ∧ ((x.op = .wild ∧ x.args = []) ∨ (x.op = .filter ∧ ∃ e, x.args = [.expr e]) ∨
    (x.op = .select ∧ ∃ v, x.args = [v]) ∨ x.op = .union)

theorem subscript_ok {s : LState} {steps : List Step} (h0 : steps ≠ []) (h : ∀ v ∈ steps, VStep v)
    (hs : Inv env text s) :
    wp (subscript steps) (fun x s' => s' = s ∧ Vals.size x.args ≤ stepsSize steps ∧ SubStep x) (PErr.In text) s := by
  unfold subscript
  split
  · exact wp_fail trivial
  · next hn =>
    cases steps with
    | nil => exact absurd rfl h0
    | cons v vs =>
      simp only
      have hv := h v (by simp)
      cases vs with
      | nil =>
        rcases hv with rfl | ⟨e, rfl, he⟩ | ⟨e, rfl, he⟩ | ⟨sl, rfl⟩ | ⟨n, rfl⟩ | ⟨x, rfl⟩ | ⟨x, rfl⟩
        · simp only [true_or, if_true]
          exact wp_pure ⟨rfl, by simp [Vals.size, stepsSize], by simp, .inl ⟨rfl, rfl⟩⟩
        · simp only [reduceCtorEq, or_self, if_false, if_true]
          exact wp_pure ⟨rfl, by simp [Vals.size, stepsSize], by simpa [Val.WF] using he, .inr (.inr (.inl ⟨rfl, _, rfl⟩))⟩
        · simp only [or_true, if_true]
          exact wp_pure ⟨rfl, by simp [Vals.size, stepsSize], by simpa [Val.WF] using he, .inr (.inl ⟨rfl, _, rfl⟩)⟩
        all_goals
          simp only [reduceCtorEq, or_self, if_false, unionArgs, Option.map_some]
          exact wp_pure ⟨rfl, by simp [Vals.size, stepsSize], by simp [Val.WF], .inr (.inr (.inl ⟨rfl, _, rfl⟩))⟩
      | cons w ws =>
        rw [if_pos (by simp)] at hn
        obtain ⟨args, h1, h2, hz, h3⟩ := VStep.notInUnion h hn
        have hop : ¬ (v.op = .wild ∨ v.op = .exp ∨ v.op = .filter) := by
          unfold JP.notInUnion at hn
          intro hc; rw [if_pos hc] at hn; cases hn
        rw [not_or, not_or] at hop
        rw [if_neg (by simp [hop]), if_neg hop.2.1, h1]
        cases args with
        | nil => simp at h2
        | cons a as =>
          cases as with
          | nil => simp at h2
          | cons b bs => exact wp_pure ⟨rfl, Nat.le_of_eq hz, h3, .inr (.inr (.inr rfl))⟩

theorem pathFuel_ok (s : LState) : mu s + 2 ≤ pathFuel s := by
  have := mu_le_rest s
  unfold pathFuel; omega

theorem pBrackets_ok {s : LState} (hs : Inv env text s) :
    wp (pBrackets env) (PPost env text (mu s) (fun x => Vals.size x.args + 1) (SubStep)) (PErr.In text) s := by
  unfold pBrackets
  have hf := pathFuel_ok s
  refine wp_bind (wp_mono (wp_fuel (g := pValList env) (n := pathFuel) (pValList_ok (pathFuel s) s hs (by omega))) ?_)
  · rintro steps s1 ⟨h1, h2, hz, h3, h4⟩
    refine wp_bind (wp_mono (subscript_ok h3 h4 h1) ?_)
    rintro x s2 ⟨rfl, hz2, h6⟩
    refine wp_bind (wp_mono (expect_ok (by simp) (lexPathP_ok h1)) ?_)
    rintro _ s3 ⟨h7, h8, _⟩
    exact wp_pure ⟨h7, by omega, by show Vals.size x.args + 1 + _ ≤ _; omega, h6⟩

theorem SubStep.wf {x : Step} (h : SubStep x) : x.WF := by
  obtain ⟨op, args⟩ := x
  obtain ⟨h1, h2⟩ := h
  simp only at h1 h2
  rcases h2 with ⟨rfl, rfl⟩ | ⟨rfl, e, rfl⟩ | ⟨rfl, v, rfl⟩ | rfl
  · exact ⟨h1, rfl⟩
  · exact ⟨h1, _, rfl⟩
  · exact ⟨h1, _, rfl⟩
  · exact ⟨h1, trivial⟩

theorem SubStep.nest {x : Step} (h : SubStep x) :
    ∃ op, nestOp x.op = some op ∧ Step.WF { x with op := op } := by
  obtain ⟨op, args⟩ := x
  obtain ⟨h1, h2⟩ := h
  simp only at h1 h2
  rcases h2 with ⟨rfl, rfl⟩ | ⟨rfl, e, rfl⟩ | ⟨rfl, v, rfl⟩ | rfl
  · exact ⟨_, rfl, h1, rfl⟩
  · exact ⟨_, rfl, h1, _, rfl⟩
  · exact ⟨_, rfl, h1, _, rfl⟩
  · exact ⟨_, rfl, h1, trivial⟩

theorem Path.WF.snoc {p : Path} {x : Step} (hp : p.WF) (hx : x.WF) : Path.WF (p ++ [x]) := by
  intro s hs
  rcases List.mem_append.1 hs with hs | hs
  · exact hp s hs
  · rw [List.mem_singleton] at hs; subst hs; exact hx

/-- A result of the path parser that is not larger than what has been read allows. -/
def PathPost (env : Env) (text : Bytes) (n : Nat) (p : Path) (s' : LState) : Prop :=
  Inv env text s' ∧ Path.size p ≤ n ∧ p.WF

theorem PathPost.mono {n m : Nat} (h : n ≤ m) (p : Path) (s' : LState) (hp : PathPost env text n p s') :
    PathPost env text m p s' := ⟨hp.1, Nat.le_trans hp.2.1 h, hp.2.2⟩

theorem Step.size_le (x : Step) : x.size ≤ Vals.size x.args + 3 := by
  unfold Step.size; split <;> omega

theorem Path.size_snoc (p : Path) (x : Step) : Path.size (p ++ [x]) = Path.size p + x.size := by
  rw [Path.size_append]; simp [Path.size]

theorem pSteps_ok : ∀ (f : Nat) (acc : Path) (s : LState), Inv env text s → acc.WF → mu s + 1 ≤ f →
    wp (pSteps env f acc) (PathPost env text (Path.size acc + 2 * mu s)) (PErr.In text) s
  | 0, _, _, _, _, h => by omega
  | f + 1, acc, s, hs, ha, hf => by
    unfold pSteps
    refine wp_bind (wp_mono (lexPathP_ok hs) ?_)
    intro lx s1 h1
    have hmem : ∀ s2, Inv env text s2 → mu s2 + 1 ≤ mu s → ∀ (o1 o2 : Op), 
        (Step.WF ⟨o1, []⟩) → (∀ v, Val.WF v → Step.WF ⟨o2, [v]⟩) →
        wp (do
          let m ← pMember env
          match m with
          | none => pSteps env f (acc ++ [⟨o1, []⟩])
          | some v => pSteps env f (acc ++ [⟨o2, [v]⟩]))
          (PathPost env text (Path.size acc + 2 * mu s)) (PErr.In text) s2 := by
      intro s2 hi2 hm2 o1 o2 w1 w2
      refine wp_bind (wp_mono (pMember_ok hi2) ?_)
      rintro m s3 ⟨h3, h4, hz, h5⟩
      split
      · refine wp_mono (pSteps_ok f _ s3 h3 (ha.snoc w1) (by omega)) (PathPost.mono ?_)
        have := Step.size_le ⟨o1, []⟩
        simp only [Vals.size] at this
        rw [Path.size_snoc]; omega
      · next v =>
        refine wp_mono (pSteps_ok f _ s3 h3 (ha.snoc (w2 v (h5 v rfl))) (by omega)) (PathPost.mono ?_)
        have := Step.size_le ⟨o2, [v]⟩
        simp only [Vals.size, optSize] at this hz
        rw [Path.size_snoc]; omega
    split
    · exact wp_pure ⟨h1.inv, by omega, ha⟩
    · next ht =>
      split
      · next er her => exact wp_fail (h1.good.errIn er her)
      · next her => have := h1.good.err.2 ht; rw [her] at this; simp at this
    · next ht =>
      refine wp_bind (wp_mono (lookPath_ok h1.inv) ?_)
      intro t s2 h2
      have hm1 := h1.lt (by simp [ht]) (h1.good.err_none (by simp [ht]))
      have hm2 := h2.mu
      split
      · refine wp_bind (wp_mono (lexPathP_ok h2.inv) ?_)
        intro lx3 s3 h3
        have hm3 := h3.le
        refine wp_bind (wp_mono (pBrackets_ok h3.inv) ?_)
        rintro sub s4 ⟨h4, h5, hz, h6⟩
        replace hz : Vals.size sub.args + 1 + mu s4 ≤ mu s3 := hz
        obtain ⟨op, hop, hw⟩ := h6.nest
        rw [hop]
        refine wp_mono (pSteps_ok f _ s4 h4 (ha.snoc hw) (by omega)) (PathPost.mono ?_)
        have := Step.size_le { sub with op := op }
        rw [Path.size_snoc]; simp only at this; omega
      · exact hmem s2 h2.inv (by omega) _ _ ⟨by simp, rfl⟩ (fun v hv => ⟨by simpa using hv, _, rfl⟩)
    · next c ht =>
      have hm1 := h1.lt (by simp [ht]) (h1.good.err_none (by simp [ht]))
      split
      · exact hmem s1 h1.inv (by omega) _ _ ⟨by simp, rfl⟩ (fun v hv => ⟨by simpa using hv, _, rfl⟩)
      split
      · refine wp_bind (wp_mono (pBrackets_ok h1.inv) ?_)
        rintro sub s4 ⟨h4, h5, hz, h6⟩
        replace hz : Vals.size sub.args + 1 + mu s4 ≤ mu s1 := hz
        refine wp_mono (pSteps_ok f _ s4 h4 (ha.snoc h6.wf) (by omega)) (PathPost.mono ?_)
        have := Step.size_le sub
        rw [Path.size_snoc]; omega
      · exact wp_fail (fun e he => h1.good.errIn e he)
    · exact wp_fail (fun e he => h1.good.errIn e he)

theorem Inv.start (env : Env) (text : Bytes) : Inv env text ⟨⟨[], text⟩, none⟩ :=
  ⟨by simp [Rd.text], by simp⟩

theorem pPath_ok (env : Env) (text : Bytes) :
    wp (pPath env) (fun p _ => p.WF ∧ Path.size p ≤ 4 * text.length) (PErr.In text) ⟨⟨[], text⟩, none⟩ := by
  unfold pPath
  refine wp_bind (wp_mono (expect_ok (by simp) (lexPathP_ok (Inv.start env text))) ?_)
  rintro _ s1 ⟨h1, h2, _⟩
  have hf := pathFuel_ok s1
  refine wp_mono (wp_fuel (g := fun n => pSteps env n []) (n := pathFuel)
    (pSteps_ok (pathFuel s1) [] s1 h1 (by intro s hs; simp at hs) (by omega))) ?_
  · rintro p s2 ⟨_, hz, h⟩
    refine ⟨h, ?_⟩
    have : mu ⟨⟨[], text⟩, none⟩ = 2 * text.length := by simp [mu]
    simp only [Path.size] at hz
    omega

/-- `ParsePath` ends with a well-formed path or an error that points into the text. -/
theorem parsePath_ok (env : Env) (text : Bytes) :
    (∃ p, parsePath env text = .ok p ∧ p.WF ∧ Path.size p ≤ 4 * text.length) ∨
    (∃ e, parsePath env text = .err e ∧ e.In text) := by
  have := pPath_ok env text
  unfold wp at this
  unfold parsePath
  split at this
  · next a s' h => rw [h]; exact .inl ⟨a, rfl, this⟩
  · next e h => rw [h]; exact .inr ⟨e, rfl, this⟩
  · exact this.elim

/-- `ParseScriptExpression` ends with a well-formed tree or an error that points into the text. -/
theorem parseScriptExpression_ok (env : Env) (text : Bytes) :
    (∃ e, parseScriptExpression env text = .ok e ∧ e.WF) ∨
    (∃ e, parseScriptExpression env text = .err e ∧ e.In text) := by
  have : wp (do
      let e ← parseScriptExpr env
      let lx ← lexExprP env
      let off ← P.offset
      if lx.tok ≠ .eof then P.fail (.missingOperator off lx.tok) else pure e)
      (fun e _ => e.WF) (PErr.In text) ⟨⟨[], text⟩, none⟩ := by
    refine wp_bind (wp_mono (parseScriptExpr_ok (Inv.start env text)) ?_)
    rintro e s1 ⟨h1, h2, h3⟩
    refine wp_bind (wp_mono (lexExprP_ok h1) ?_)
    intro lx s2 h4
    refine wp_bind (wp_offset ?_)
    split
    · exact wp_fail h4.inv.offset
    · exact wp_pure h3
  unfold wp at this
  unfold parseScriptExpression
  dsimp only
  split at this
  · next a s' h => rw [h]; exact .inl ⟨a, rfl, this⟩
  · next e h => rw [h]; exact .inr ⟨e, rfl, this⟩
  · exact this.elim

/-! ### The compiler does not panic -/

/-- Neither a panic nor out of fuel. -/
def Calm {ε α : Type} : Res ε α → Prop
  | .ok _ => True
  | .err _ => True
  | _ => False

theorem Calm.bind {ε α β : Type} {x : Res ε α} {f : α → Res ε β} (hx : Calm x) (hf : ∀ a, x = .ok a → Calm (f a)) :
    Calm (x >>= f) := by
  cases x with
  | ok a => exact hf a rfl
  | err e => exact trivial
  | panic m => exact hx.elim
  | stuck => exact hx.elim

theorem mkVal_calm (v : PVal) (p : Program) : Calm (mkVal v p) := by
  unfold mkVal
  dsimp only
  repeat' split
  all_goals trivial

theorem codeOp_calm (op : Op) (v : Option PVal) (p : Program) : Calm (codeOp op v p) := by
  unfold codeOp
  split
  · trivial
  · dsimp only
    split
    · split
      · trivial
      · exact Calm.bind (mkVal_calm _ _) (fun _ _ => trivial)
    · exact Calm.bind (mkVal_calm _ _) (fun _ _ => trivial)

theorem notLeaf_of_wf {op : Op} {kids : List Expr} (h : Expr.WF (.inner op kids)) :
    op.isLeaf = false := by
  cases h with
  | unary _ _ h => revert h; cases op <;> decide
  | binary _ _ _ h => revert h; cases op <;> decide
  | dot => rfl
  | array => rfl
  | call => rfl

theorem kids_of_wf {op : Op} {kids : List Expr} (h : Expr.WF (.inner op kids)) : Exprs.WF kids := by
  cases h with
  | unary _ _ _ h => exact .cons _ _ h .nil
  | binary _ _ _ _ h1 h2 => exact .cons _ _ h1 (.cons _ _ h2 .nil)
  | dot _ _ h => exact .cons _ _ h (.cons _ _ (.name _) .nil)
  | array _ h => exact h
  | call _ _ h => exact .cons _ _ (.name _) h

mutual
theorem codeExpr_calm : ∀ (e : Expr) (_ : e.WF) (p : Program), Calm (codeExpr e p)
  | .int n, _, p => by
    unfold codeExpr; split
    · trivial
    · exact codeOp_calm _ _ _
  | .float f, _, p => by unfold codeExpr; exact codeOp_calm _ _ _
  | .str f, _, p => by unfold codeExpr; exact codeOp_calm _ _ _
  | .name f, _, p => by unfold codeExpr; exact codeOp_calm _ _ _
  | .re f, _, p => by unfold codeExpr; exact codeOp_calm _ _ _
  | .bool b, _, p => by unfold codeExpr; trivial
  | .null, _, p => by unfold codeExpr; exact codeOp_calm _ _ _
  | .current, _, p => by unfold codeExpr; exact codeOp_calm _ _ _
  | .root, _, p => by unfold codeExpr; exact codeOp_calm _ _ _
  | .inner op kids, h, p => by
    unfold codeExpr
    rw [if_neg (by simp [notLeaf_of_wf h])]
    exact Calm.bind (codeKids_calm kids (kids_of_wf h) p) (fun _ _ => trivial)
theorem codeKids_calm : ∀ (es : List Expr) (_ : Exprs.WF es) (p : Program), Calm (codeKids es p)
  | [], _, p => by unfold codeKids; trivial
  | e :: es, h, p => by
    unfold codeKids
    cases h with
    | cons _ _ h1 h2 => exact Calm.bind (codeExpr_calm e h1 p) (fun q _ => codeKids_calm es h2 q)
end

theorem codeVal_calm (op : Op) (v : Val) (h : v.WF) (p : Program) : Calm (codeVal op v p) := by
  unfold codeVal
  split
  · exact codeExpr_calm _ h p
  all_goals
    split
    · exact codeOp_calm _ _ _
    · exact codeOp_calm _ _ _

theorem codeArgs_calm : ∀ (vs : List Val) (_ : ∀ v ∈ vs, v.WF) (p : Program), Calm (codeArgs vs p)
  | [], _, p => by unfold codeArgs; trivial
  | v :: vs, h, p => by
    unfold codeArgs
    exact Calm.bind (codeVal_calm _ v (h v (by simp)) p) (fun q _ => codeArgs_calm vs (fun w hw => h w (by simp [hw])) q)

theorem codeStep_calm (s : Step) (h : s.WF) (p : Program) : Calm (codeStep s p) :=
  Calm.bind (codeArgs_calm s.args h.1 p) (fun _ _ => trivial)

theorem codeLoop_calm (s : Step) (h : s.WF) (op : Op) (p : Program) : Calm (codeLoop s op p) :=
  Calm.bind (codeStep_calm s h _) (fun _ _ => trivial)

theorem codePathStep_calm (s : Step) (h : s.WF) (p : Program) : Calm (codePathStep s p) := by
  unfold codePathStep
  have hnl : (s.op.isLeaf && s.op.hasVal) = false := by
    have := h.2
    cases hop : s.op <;> rw [hop] at this <;> first | rfl | exact this.elim
  rw [if_neg (by simp [hnl])]
  cases s.op <;> first | exact codeLoop_calm s h _ p | exact codeStep_calm s h p

theorem codePath_calm : ∀ (path : Path) (_ : path.WF) (p : Program), Calm (codePath path p)
  | [], _, p => by unfold codePath; trivial
  | s :: r, h, p => by
    unfold codePath
    exact Calm.bind (codePathStep_calm s (h s (by simp)) p)
      (fun q _ => codePath_calm r (fun w hw => h w (by simp [hw])) q)

theorem compile_calm (path : Path) (h : path.WF) : Calm (compile path) := codePath_calm path h _

end JP
