import Verif.Spec.Errors
import Verif.Proof.Safe
import Verif.Proof.Select
/-! Where errors come from. -/
namespace JP
open Spec

variable {env : Env} {oracle : Oracle} {root : V}

theorem bind_eq_err {ε α β : Type} {x : Res ε α} {f : α → Res ε β} {e : ε} (h : (x >>= f) = .err e) :
    x = .err e ∨ ∃ a, x = .ok a ∧ f a = .err e := by
  cases x with
  | ok a => exact .inr ⟨a, rfl, h⟩
  | err e' => cases h; exact .inl rfl
  | panic m => cases h
  | stuck => cases h

/-- An expression whose evaluation can raise `x`: a part of it is the cause. -/
def CausedBy (env : Env) (oracle : Oracle) (root : V) (e : Expr) (x : RErr) : Prop := ∃ e', Part e e' ∧ Cause env oracle root e' x

theorem ofName_functions {id : Bytes} :
    (Fn.ofName id = none → ∀ n, (id, n) ∉ functions) ∧ (∀ f, Fn.ofName id = some f → (id, f.arity) ∈ functions) := by
  constructor
  · intro h n hm
    simp only [functions, List.mem_cons, Prod.mk.injEq, List.not_mem_nil, or_false] at hm
    rcases hm with ⟨rfl, -⟩ | ⟨rfl, -⟩ | ⟨rfl, -⟩ | ⟨rfl, -⟩ | ⟨rfl, -⟩ | ⟨rfl, -⟩ | ⟨rfl, -⟩ | ⟨rfl, -⟩ |
      ⟨rfl, -⟩ | ⟨rfl, -⟩ | ⟨rfl, -⟩ | ⟨rfl, -⟩ | ⟨rfl, -⟩ | ⟨rfl, -⟩ | ⟨rfl, -⟩ <;> exact absurd h (by decide)
  · intro f h
    unfold Fn.ofName at h
    have hite : ∀ {c : Prop} [Decidable c] {a b : Option Fn}, (if c then a else b) = some f → (c ∧ a = some f) ∨ b = some f := by
      intro c _ a b h
      split at h
      · rename_i hc; exact .inl ⟨hc, h⟩
      · exact .inr h
    iterate 15
      rcases hite h with ⟨rfl, h⟩ | h
      · cases h; decide
    cases h

theorem functions_unique {id : Bytes} {m n : Option Nat} (h1 : (id, m) ∈ functions) (h2 : (id, n) ∈ functions) : m = n := by
  have : ∀ p ∈ functions, ∀ q ∈ functions, p.1 = q.1 → p.2 = q.2 := by decide
  exact this _ h1 _ h2 rfl

theorem sliceLoop_no_err {up : Bool} {src : List V} {stop stride : Int64} {x : RErr} : ∀ (fuel : Nat) (i : Int64) (acc : List V),
    sliceLoop up src stop stride fuel i acc ≠ .err x
  | 0, i, acc, h => by unfold sliceLoop at h; cases h
  | fuel + 1, i, acc, h => by
    unfold sliceLoop at h
    repeat' split at h
    all_goals first | cases h | exact sliceLoop_no_err fuel _ _ h

theorem sliceVals_no_err {src : List V} {s : Slice} {x : RErr} : sliceVals src s ≠ .err x := by
  intro h
  unfold sliceVals at h
  dsimp only at h
  repeat' split at h
  all_goals first | cases h | exact sliceLoop_no_err _ _ _ h

theorem valsByKey_no_err {vals : GoSlice} {src key : V} {neg : Bool} {x : RErr} : valsByKey env vals src key neg ≠ .err x := by
  intro h
  unfold valsByKey at h
  split at h
  · split at h
    · rcases bind_eq_err h with h | ⟨_, _, h⟩
      · exact sliceVals_no_err h
      · cases h
    · cases h
  · repeat' split at h
    all_goals cases h

theorem unionByKeys_no_err {src : V} {x : RErr} : ∀ (sels : List V) (vals : GoSlice), unionByKeys env vals src sels ≠ .err x
  | [], vals, h => by cases h
  | sel :: r, vals, h => by
    unfold unionByKeys at h
    split at h
    · exact unionByKeys_no_err r vals h
    · rcases bind_eq_err h with h | ⟨_, _, h⟩
      · exact valsByKey_no_err h
      · exact unionByKeys_no_err r _ h

theorem applySelection_no_err {f : Nat → V → GoSlice → Res RErr GoSlice} {x : RErr} (hf : ∀ k el acc, f k el acc ≠ .err x) :
    ∀ (l : List V) (k : Nat) (acc : GoSlice), applySelection f k acc l ≠ .err x
  | [], k, acc, h => by cases h
  | el :: r, k, acc, h => by
    unfold applySelection at h
    rcases bind_eq_err h with h | ⟨_, _, h⟩
    · exact hf _ _ _ h
    · exact applySelection_no_err hf r _ _ h

theorem fnApply_no_err {ord : Ord} {f : Fn} {args : List V} {x : RErr} : f.apply env ord args ≠ .err x := by
  intro h
  unfold Fn.apply at h
  repeat' split at h
  all_goals cases h

theorem call_err {ord : Ord} {id : Bytes} {args : List V} {x : RErr} (h : call env ord id args = .err x) :
    (x = .unknownFunction id ∧ ∀ n, (id, n) ∉ functions) ∨
      ∃ n, x = .wrongArgs id n args.length ∧ (id, some n) ∈ functions ∧ args.length ≠ n := by
  unfold call at h
  cases hf : Fn.ofName id with
  | none =>
    rw [hf] at h
    cases h
    exact .inl ⟨rfl, ofName_functions.1 hf⟩
  | some f =>
    simp only [hf] at h
    have hm := ofName_functions.2 f hf
    cases ha : f.arity with
    | none => simp only [ha] at h; exact absurd h fnApply_no_err
    | some n =>
      simp only [ha] at h
      rw [ha] at hm
      split at h
      · rename_i hne
        cases h
        exact .inr ⟨n, rfl, hm, hne⟩
      · exact absurd h fnApply_no_err

theorem binop_err {op : Op} {a b : V} {x : RErr} (h : binop env op a b = some (.err x)) :
    (op = .match_ ∧ opMatch env a b = .err x) ∨ ((op = .in_ ∨ op = .nin) ∧ opIn env op a b = .err x) := by
  cases op <;> simp [binop] at h <;> first
    | exact .inl ⟨rfl, h⟩
    | exact .inr ⟨by simp, h⟩
    | (exfalso; unfold opDot at h; repeat' split at h
       all_goals cases h)
    | (exfalso; unfold opSlice at h; split at h
       · cases h
       · split at h
         · rcases bind_eq_err h with h | ⟨_, _, h⟩
           · unfold slicing at h
             dsimp only at h
             split at h
             · split at h <;> cases h
             · exact sliceVals_no_err h
           · cases h
         · cases h)

theorem Part.kid' {op : Op} {kids : List Expr} {k : Expr} {x : RErr} (hk : k ∈ kids) (h : CausedBy env oracle root k x) :
    CausedBy env oracle root (.inner op kids) x := by
  obtain ⟨e', h1, h2⟩ := h
  exact ⟨e', .kid _ _ _ _ hk h1, h2⟩

/-- The operands have the values found. -/
theorem evalKids_ok {dot : V} : ∀ {kids : List Expr} {t t' : Nat} {vs : List V}, evalKids env oracle root dot kids t = .ok (vs, t') →
    All2 (CanHave env oracle root) kids vs
  | [], t, t', vs, h => by unfold evalKids at h; cases h; exact .nil
  | e :: r, t, t', vs, h => by
    unfold evalKids at h
    obtain ⟨⟨v, t1⟩, h1, h⟩ := bind_eq_ok h
    obtain ⟨⟨ws, t2⟩, h2, h⟩ := bind_eq_ok h
    cases h
    exact .cons ⟨dot, t, t1, h1⟩ (evalKids_ok h2)

mutual
theorem evalExpr_err {dot : V} : ∀ (e : Expr) (_ : e.WF) {t : Nat} {x : RErr}, evalExpr env oracle root dot e t = .err x →
    CausedBy env oracle root e x
  | .int _, _, t, x, h => by unfold evalExpr at h; cases h
  | .float _, _, t, x, h => by unfold evalExpr at h; cases h
  | .str _, _, t, x, h => by unfold evalExpr at h; cases h
  | .bool _, _, t, x, h => by unfold evalExpr at h; cases h
  | .null, _, t, x, h => by unfold evalExpr at h; cases h
  | .name _, _, t, x, h => by unfold evalExpr at h; cases h
  | .re _, _, t, x, h => by unfold evalExpr at h; cases h
  | .current, _, t, x, h => by unfold evalExpr at h; cases h
  | .root, _, t, x, h => by unfold evalExpr at h; cases h
  | .inner op kids, hw, t, x, h => by
    have hk : Exprs.WF kids := by
      cases hw with
      | unary _ _ _ h1 => exact .cons _ _ h1 .nil
      | binary _ _ _ _ h1 h2 => exact .cons _ _ h1 (.cons _ _ h2 .nil)
      | dot _ _ h1 => exact .cons _ _ h1 (.cons _ _ (.name _) .nil)
      | array _ h1 => exact h1
      | call _ _ h1 => exact .cons _ _ (.name _) h1
    unfold evalExpr at h
    rcases bind_eq_err h with h | ⟨⟨vs, t'⟩, h1, h⟩
    · obtain ⟨k, hm, hc⟩ := evalKids_err kids hk h
      exact Part.kid' hm hc
    rcases bind_eq_err h with h | ⟨_, _, h⟩
    rotate_left
    · cases h
    have hv := evalKids_ok h1
    refine ⟨_, .self _, ?_⟩
    unfold applyOp at h
    have hbin : ∀ a b : V, vs = [a, b] → (match binop env op a b with | some r => r | none => .stuck) = .err x → Cause env oracle root (.inner op kids) x := by
      rintro a b rfl h
      cases hb : binop env op a b with
      | none => rw [hb] at h; cases h
      | some r =>
        rw [hb] at h
        dsimp only at h
        subst h
        cases hv with
        | cons ha hv => cases hv with
        | cons hb' hv => cases hv with
        | nil =>
        rcases binop_err hb with ⟨rfl, h2⟩ | ⟨hop, h2⟩
        · unfold opMatch at h2
          cases hn : isNothing a || isNothing b with
          | true => rw [hn] at h2; cases h2
          | false =>
            simp only [hn, Bool.false_eq_true, if_false] at h2
            simp only [Bool.or_eq_false_iff] at hn
            have hna : ∀ y, a ≠ .err y := by rintro y rfl; simp [isNothing] at hn
            have hnb : ∀ y, b ≠ .err y := by rintro y rfl; simp [isNothing] at hn
            cases b with
            | re p =>
              simp only at h2
              cases a with
              | str s => cases h2
              | _ => cases h2; exact .matchLeft _ _ _ ha (by simp) hna
            | str s =>
              simp only at h2
              cases hr : env.reValid s with
              | false =>
                rw [hr] at h2
                cases h2
                exact .badRegexp _ _ _ hb' hr
              | true =>
                rw [hr] at h2
                simp only [if_true] at h2
                cases a with
                | str s => cases h2
                | _ => cases h2; exact .matchLeft _ _ _ ha (by simp) hna
            | _ => cases h2; exact .matchRight _ _ _ hb' (by simp) (by simp) hnb
        · unfold opIn at h2
          cases hn : isNothing a || isNothing b with
          | true => rw [hn] at h2; cases h2
          | false =>
            simp only [hn, Bool.false_eq_true, if_false] at h2
            simp only [Bool.or_eq_false_iff] at hn
            have hnb : ∀ y, b ≠ .err y := by rintro y rfl; simp [isNothing] at hn
            cases b with
            | arr xs => cases h2
            | _ => cases h2; exact .inRight _ _ _ _ hop hb' (by simp) hnb
    split at h
    · cases h
    · cases hw with
      | unary _ _ hop _ => simp [Op.isUnary] at hop
      | binary _ _ _ hop _ _ => simp [Op.isBinary] at hop
      | call f es _ =>
        cases hv with
        | cons hf hv =>
        obtain ⟨_, _, _, hf⟩ := hf
        unfold evalExpr at hf
        cases hf
        simp only at h
        have hlen : ∀ {es : List Expr} {vs : List V}, All2 (CanHave env oracle root) es vs → es.length = vs.length := by
          intro es vs h
          induction h with
          | nil => rfl
          | cons _ _ ih => simp [ih]
        rcases call_err h with ⟨rfl, hn⟩ | ⟨n, rfl, hm, hne⟩
        · exact .unknownFunction _ _ hn
        · rw [← hlen hv] at hne ⊢
          exact .wrongArgs _ _ _ hm hne
    · split at h
      · split at h <;> cases h
      · exact hbin _ _ rfl h
      · cases h
theorem evalKids_err {dot : V} : ∀ (es : List Expr) (_ : Exprs.WF es) {t : Nat} {x : RErr}, evalKids env oracle root dot es t = .err x →
    ∃ e ∈ es, CausedBy env oracle root e x
  | [], _, t, x, h => by unfold evalKids at h; cases h
  | e :: r, hw, t, x, h => by
    cases hw with
    | cons _ _ h1 h2 =>
    unfold evalKids at h
    rcases bind_eq_err h with h | ⟨_, _, h⟩
    · exact ⟨e, by simp, evalExpr_err e h1 h⟩
    rcases bind_eq_err h with h | ⟨_, _, h⟩
    · obtain ⟨k, hm, hc⟩ := evalKids_err r h2 h
      exact ⟨k, by simp [hm], hc⟩
    · cases h
end

theorem evalVals_err {dot : V} : ∀ (vs : List Val) (_ : ∀ v ∈ vs, v.WF) {t : Nat} {x : RErr}, evalVals env oracle root dot vs t = .err x →
    ∃ e, .expr e ∈ vs ∧ CausedBy env oracle root e x
  | [], _, t, x, h => by unfold evalVals at h; cases h
  | v :: r, hw, t, x, h => by
    unfold evalVals at h
    rcases bind_eq_err h with h | ⟨_, _, h⟩
    · cases v with
      | expr e => exact ⟨e, by simp, evalExpr_err e (hw (.expr e) (by simp)) h⟩
      | _ => cases h
    rcases bind_eq_err h with h | ⟨_, _, h⟩
    · obtain ⟨k, hm, hc⟩ := evalVals_err r (fun v hv => hw v (by simp [hv])) h
      exact ⟨k, by simp [hm], hc⟩
    · cases h

theorem visit_no_err {ord : Ord} {op : Op} {dot : V} {vs : List V} {out : GoSlice} {x : RErr} : visit env ord op dot vs out ≠ .err x := by
  intro h
  unfold visit at h
  repeat' split at h
  all_goals first | cases h | exact valsByKey_no_err h | exact unionByKeys_no_err _ _ h

theorem visits_err {s : Step} (hw : ∀ v ∈ s.args, v.WF) : ∀ (l : List V) {out : GoSlice} {t : Nat} {x : RErr},
    visits env oracle root s l out t = .err x → ∃ e, .expr e ∈ s.args ∧ CausedBy env oracle root e x
  | [], out, t, x, h => by unfold visits at h; cases h
  | dot :: r, out, t, x, h => by
    unfold visits at h
    rcases bind_eq_err h with h | ⟨_, _, h⟩
    · exact evalVals_err _ hw h
    rcases bind_eq_err h with h | ⟨_, _, h⟩
    · exact absurd h visit_no_err
    · exact visits_err hw r h

theorem loop_err {s : Step} (hw : ∀ v ∈ s.args, v.WF) {l : List V} {out : GoSlice} {t : Nat} {x : RErr}
    (h : loop env oracle root s l out t = .err x) : ∃ e, .expr e ∈ s.args ∧ CausedBy env oracle root e x := by
  unfold loop at h
  split at h
  · cases h
  · exact visits_err hw _ h

theorem evalStep_err {s : Step} (hw : ∀ v ∈ s.args, v.WF) {out : GoSlice} {t : Nat} {x : RErr}
    (h : evalStep env oracle root s out t = .err x) : ∃ e, .expr e ∈ s.args ∧ CausedBy env oracle root e x := by
  unfold evalStep at h
  have hsel : ∀ neg : Bool, (evalVals env oracle root .null s.args t >>= fun x => match x.1 with
      | [sel] => if isNothing sel then .ok (some [], x.2)
        else applySelection (fun _ el acc => valsByKey env acc el sel neg) 0 (some []) out.elems >>= fun out => .ok (out, x.2)
      | _ => .stuck) = (.err x : Res RErr (GoSlice × Nat)) → ∃ e, .expr e ∈ s.args ∧ CausedBy env oracle root e x := by
    intro neg h
    rcases bind_eq_err h with h | ⟨⟨vs, t'⟩, _, h⟩
    · exact evalVals_err _ hw h
    · dsimp only at h
      split at h
      · split at h
        · cases h
        · rcases bind_eq_err h with h | ⟨_, _, h⟩
          · exact absurd h (applySelection_no_err (fun _ _ _ => valsByKey_no_err) _ _ _)
          · cases h
      · cases h
  split at h
  · rcases bind_eq_err h with h | ⟨_, _, h⟩
    · exact absurd h (applySelection_no_err (fun _ _ _ => by simp) _ _ _)
    · cases h
  · exact hsel _ h
  · exact hsel _ h
  · rcases bind_eq_err h with h | ⟨⟨vs, t'⟩, _, h⟩
    · exact evalVals_err _ hw h
    · rcases bind_eq_err h with h | ⟨_, _, h⟩
      · exact absurd h (applySelection_no_err (fun _ _ _ => unionByKeys_no_err _ _) _ _ _)
      · cases h
  all_goals first | exact loop_err hw h | cases h

theorem evalSteps_err : ∀ (p : Path) (_ : p.WF) {out : GoSlice} {t : Nat} {x : RErr},
    evalSteps env oracle root p out t = .err x → ∃ s ∈ p, ∃ e, .expr e ∈ s.args ∧ CausedBy env oracle root e x
  | [], _, out, t, x, h => by unfold evalSteps at h; cases h
  | s :: r, hw, out, t, x, h => by
    unfold evalSteps at h
    rcases bind_eq_err h with h | ⟨⟨out', t'⟩, _, h⟩
    · exact ⟨s, by simp, evalStep_err (hw s (by simp)).1 h⟩
    · obtain ⟨s', hm, hc⟩ := evalSteps_err r (fun s hs => hw s (by simp [hs])) h
      exact ⟨s', by simp [hm], hc⟩

theorem evalPath_err {p : Path} (hw : p.WF) {x : RErr} (h : evalPath env oracle root p = .err x) :
    ∃ s ∈ p, ∃ e, .expr e ∈ s.args ∧ CausedBy env oracle root e x := by
  unfold evalPath at h
  rcases bind_eq_err h with h | ⟨_, _, h⟩
  · exact evalSteps_err p hw h
  · cases h

/-- When an expression has a value, every part of it has one. -/
theorem part_ok {dot : V} {e e' : Expr} (hp : Part e e') : ∀ {t : Nat} {r : V × Nat}, evalExpr env oracle root dot e t = .ok r →
    ∃ t' r', evalExpr env oracle root dot e' t' = .ok r' := by
  induction hp with
  | self e => intro t r h; exact ⟨t, r, h⟩
  | kid op kids k e hm _ ih =>
    intro t r h
    unfold evalExpr at h
    obtain ⟨⟨vs, t1⟩, h1, -⟩ := bind_eq_ok h
    have key : ∀ {kids : List Expr} {t : Nat} {vs : List V × Nat}, k ∈ kids → evalKids env oracle root dot kids t = .ok vs →
        ∃ t' r', evalExpr env oracle root dot k t' = .ok r' := by
      intro kids
      induction kids with
      | nil => intro t vs hm; cases hm
      | cons a as ih =>
        intro t vs hm h
        unfold evalKids at h
        obtain ⟨⟨v, t1⟩, h1, h⟩ := bind_eq_ok h
        obtain ⟨⟨ws, t2⟩, h2, h⟩ := bind_eq_ok h
        rcases List.mem_cons.1 hm with rfl | hm
        · exact ⟨_, _, h1⟩
        · exact ih hm h2
    obtain ⟨t', r', h'⟩ := key hm h1
    exact ih h'

theorem evalVals_part {dot : V} {e : Expr} : ∀ {args : List Val} {t : Nat} {r : List V × Nat}, .expr e ∈ args →
    evalVals env oracle root dot args t = .ok r → ∃ t' r', evalExpr env oracle root dot e t' = .ok r' := by
  intro args
  induction args with
  | nil => intro t r hm; cases hm
  | cons a as ih =>
    intro t r hm h
    unfold evalVals at h
    obtain ⟨⟨v, t1⟩, h1, h⟩ := bind_eq_ok h
    obtain ⟨⟨ws, t2⟩, h2, h⟩ := bind_eq_ok h
    rcases List.mem_cons.1 hm with rfl | hm
    · exact ⟨_, _, h1⟩
    · exact ih hm h2

end JP
