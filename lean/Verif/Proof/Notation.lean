import Verif.Spec.Notation
import Verif.Proof.Perm
/-!
Steps that are written differently and mean the same.
-/
namespace JP
open Spec

/-- Two keys that select the same from every value. -/
structure KeySame (env : Env) (a b : V) : Prop where
  nothing : isNothing a = isNothing b
  vals : ∀ acc src neg, valsByKey env acc src a neg = valsByKey env acc src b neg

/-- The same outcome, up to keys that select the same. -/
inductive RelV (env : Env) : Res RErr (V × Nat) → Res RErr (V × Nat) → Prop
  | same (r) : RelV env r r
  | ok (a b t) : KeySame env a b → RelV env (.ok (a, t)) (.ok (b, t))

inductive RelVs (env : Env) : Res RErr (List V × Nat) → Res RErr (List V × Nat) → Prop
  | same (r) : RelVs env r r
  | ok (as bs t) : All2 (KeySame env) as bs → RelVs env (.ok (as, t)) (.ok (bs, t))

variable {env : Env}

theorem KeySame.refl (a : V) : KeySame env a a := ⟨rfl, fun _ _ _ => rfl⟩
theorem KeySame.symm {a b : V} (h : KeySame env a b) : KeySame env b a := ⟨h.1.symm, fun x y z => (h.2 x y z).symm⟩
theorem KeySame.trans {a b c : V} (h : KeySame env a b) (h' : KeySame env b c) : KeySame env a c :=
  ⟨h.1.trans h'.1, fun x y z => (h.2 x y z).trans (h'.2 x y z)⟩

theorem All2.refl_of {α : Type} {R : α → α → Prop} (h : ∀ a, R a a) : ∀ l, All2 R l l
  | [] => .nil
  | a :: r => .cons (h a) (All2.refl_of h r)

theorem RelV.symm {r r' : Res RErr (V × Nat)} (h : RelV env r r') : RelV env r' r := by
  cases h with
  | same => exact .same _
  | ok a b t h => exact .ok _ _ _ h.symm

theorem RelV.trans {r r' r'' : Res RErr (V × Nat)} (h : RelV env r r') (h' : RelV env r' r'') : RelV env r r'' := by
  cases h with
  | same => exact h'
  | ok a b t h =>
    generalize hx : Res.ok (b, t) = x at h'
    cases h' with
    | same => subst hx; exact .ok _ _ _ h
    | ok a' b' t' h' => cases hx; exact .ok _ _ _ (h.trans h')

theorem RelV.out {r r' : Res RErr (V × Nat)} (h : RelV env r r') :
    (∃ a b t, r = .ok (a, t) ∧ r' = .ok (b, t) ∧ KeySame env a b) ∨ (r = r' ∧ ∀ x, r ≠ .ok x) := by
  cases h with
  | same =>
    match r with
    | .ok (a, t) => exact .inl ⟨a, a, t, rfl, rfl, .refl _⟩
    | .err _ | .panic _ | .stuck => exact .inr ⟨rfl, by simp⟩
  | ok a b t h => exact .inl ⟨a, b, t, rfl, rfl, h⟩

theorem RelVs.out {r r' : Res RErr (List V × Nat)} (h : RelVs env r r') :
    (∃ as bs t, r = .ok (as, t) ∧ r' = .ok (bs, t) ∧ All2 (KeySame env) as bs) ∨ (r = r' ∧ ∀ x, r ≠ .ok x) := by
  cases h with
  | same =>
    match r with
    | .ok (a, t) => exact .inl ⟨a, a, t, rfl, rfl, All2.refl_of .refl _⟩
    | .err _ | .panic _ | .stuck => exact .inr ⟨rfl, by simp⟩
  | ok a b t h => exact .inl ⟨a, b, t, rfl, rfl, h⟩

theorem sliceVals_congr {xs : List V} {s s' : Slice} (h : ∀ l, sliceEval s l = sliceEval s' l) : sliceVals xs s = sliceVals xs s' := by
  unfold sliceVals; rw [h]

theorem keySame_slice {s s' : Slice} (h : ∀ l, sliceEval s l = sliceEval s' l) : KeySame env (.slice s) (.slice s') := by
  refine ⟨rfl, fun acc src neg => ?_⟩
  cases src <;> simp [valsByKey, sliceVals_congr h]

theorem keySame_name (s : Bytes) : KeySame env (.str s) (.name s) := by
  refine ⟨rfl, fun acc src neg => ?_⟩
  cases src <;> simp [valsByKey, valByKey, mapKey, isInt]

theorem sameKey_rel {a b : Val} (h : SameKey a b) (oracle : Oracle) (root dot : V) (t : Nat) :
    RelV env (evalVal env oracle root dot a t) (evalVal env oracle root dot b t) := by
  induction h with
  | refl => exact .same _
  | symm _ ih => exact ih.symm
  | trans _ _ ih1 ih2 => exact ih1.trans ih2
  | bare s => exact .ok _ _ _ (keySame_name s)
  | str s => exact .same _
  | int n => exact .same _
  | stride a b => exact .ok _ _ _ (keySame_slice fun l => by simp only [sliceEval, show (Bound.int 1).cvi = 1 from rfl])
  | start b c hc =>
    refine .ok _ _ _ (keySame_slice fun l => ?_)
    cases c with
    | none => simp [sliceEval, Bound.cvi]
    | some x =>
      obtain ⟨n, rfl, hn⟩ := hc x rfl
      have : ¬ n < 0 := by
        rw [Int64.lt_iff_toInt_lt]
        show ¬ n.toInt < 0
        omega
      simp [sliceEval, Bound.cvi, this]

theorem sameKeys_rel {as bs : List Val} (h : All2 SameKey as bs) (oracle : Oracle) (root dot : V) (t : Nat) :
    RelVs env (evalVals env oracle root dot as t) (evalVals env oracle root dot bs t) := by
  induction h generalizing t with
  | nil => exact .same _
  | cons h1 _ ih =>
    simp only [evalVals]
    rcases (sameKey_rel (env := env) h1 oracle root dot t).out with ⟨a, b, t1, e1, e2, hk⟩ | ⟨e, _⟩
    · rw [e1, e2]
      simp only [Res.bind_ok]
      rcases (ih t1).out with ⟨as, bs, t2, e3, e4, hks⟩ | ⟨e, _⟩
      · rw [e3, e4]
        exact .ok _ _ _ (.cons hk hks)
      · rw [e]
        match hr : evalVals env oracle root dot _ t1 with
        | .ok (cs, t2) => rename_i hn; exact absurd (e.trans hr) (hn _)
        | .err _ | .panic _ | .stuck => exact .same _
    · rename_i hn
      rw [e]
      match hr : evalVal env oracle root dot _ t with
      | .ok x => exact absurd (e.trans hr) (hn _)
      | .err _ | .panic _ | .stuck => exact .same _

theorem unionByKeys_congr {src : V} {ks ks' : List V} (h : All2 (KeySame env) ks ks') (acc : GoSlice) :
    unionByKeys env acc src ks = unionByKeys env acc src ks' := by
  induction h generalizing acc with
  | nil => rfl
  | cons h1 _ ih =>
    simp only [unionByKeys, h1.nothing, h1.vals]
    split
    · exact ih _
    · congr 1
      funext x
      exact ih x

/-- The operators of steps that select by keys. -/
def Keyed (op : Op) : Prop :=
  op = .member ∨ op = .select ∨ op = .union ∨ op = .nestMember ∨ op = .nestSelect ∨ op = .nestUnion

theorem visit_congr {op : Op} (hop : Keyed op) {ks ks' : List V} (h : All2 (KeySame env) ks ks') (ord : Ord) (dot : V) (out : GoSlice) :
    visit env ord op dot ks out = visit env ord op dot ks' out := by
  rcases hop with rfl | rfl | rfl | rfl | rfl | rfl
  iterate 3 (cases h with
    | nil => rfl
    | cons h1 h2 => cases h2 <;> rfl)
  iterate 2 (cases h with
    | nil => rfl
    | cons h1 h2 => cases h2 with
      | nil => simp only [visit, h1.nothing, h1.vals]
      | cons _ _ => rfl)
  · exact unionByKeys_congr h out

theorem visits_congr {op : Op} (hop : Keyed op) {oracle : Oracle} {root : V} {as bs : List Val}
    (h : ∀ dot t, RelVs env (evalVals env oracle root dot as t) (evalVals env oracle root dot bs t)) :
    ∀ (l : List V) (out : GoSlice) (t : Nat), visits env oracle root ⟨op, as⟩ l out t = visits env oracle root ⟨op, bs⟩ l out t
  | [], out, t => rfl
  | v :: r, out, t => by
    unfold visits
    rcases (h v t).out with ⟨ks, ks', t1, e1, e2, hk⟩ | ⟨e, hn⟩
    · simp only [e1, e2, Res.bind_ok, visit_congr hop hk]
      congr 1
      funext o
      exact visits_congr hop h r o _
    · simp only
      match hr : evalVals env oracle root v as t with
      | .ok x => exact absurd hr (hn _)
      | .err _ | .panic _ | .stuck => rw [← e, hr]; rfl

theorem evalStep_congr {op : Op} (hop : Keyed op) {oracle : Oracle} {root : V} {as bs : List Val}
    (h : ∀ dot t, RelVs env (evalVals env oracle root dot as t) (evalVals env oracle root dot bs t)) (out : GoSlice) (t : Nat) :
    evalStep env oracle root ⟨op, as⟩ out t = evalStep env oracle root ⟨op, bs⟩ out t := by
  have hl : ∀ vals, loop env oracle root ⟨op, as⟩ vals out (t + 1) = loop env oracle root ⟨op, bs⟩ vals out (t + 1) := by
    intro vals
    unfold loop
    rw [visits_congr hop h]
  have hs := h .null t
  rcases hop with rfl | rfl | rfl | rfl | rfl | rfl
  iterate 2 (
    unfold evalStep
    rcases hs.out with ⟨ks, ks', t1, e1, e2, hk⟩ | ⟨e, hn⟩
    · simp only [e1, e2, Res.bind_ok]
      cases hk with
      | nil => rfl
      | cons h1 h2 => cases h2 with
        | nil => simp only [h1.nothing, h1.vals]
        | cons _ _ => rfl
    · simp only
      match hr : evalVals env oracle root .null as t with
      | .ok x => exact absurd hr (hn _)
      | .err _ | .panic _ | .stuck => rw [← e, hr])
  · unfold evalStep
    rcases hs.out with ⟨ks, ks', t1, e1, e2, hk⟩ | ⟨e, hn⟩
    · simp only [e1, e2, Res.bind_ok, unionByKeys_congr hk]
    · simp only
      match hr : evalVals env oracle root .null as t with
      | .ok x => exact absurd hr (hn _)
      | .err _ | .panic _ | .stuck => rw [← e, hr]
  all_goals exact hl _

theorem relVs_single {as bs : Val} {oracle : Oracle} {root dot : V} {t : Nat}
    (h : RelV env (evalVal env oracle root dot as t) (evalVal env oracle root dot bs t)) :
    RelVs env (evalVals env oracle root dot [as] t) (evalVals env oracle root dot [bs] t) := by
  simp only [evalVals]
  rcases h.out with ⟨a, b, t1, e1, e2, hk⟩ | ⟨e, hn⟩
  · rw [e1, e2]; exact .ok _ _ _ (.cons hk .nil)
  · rw [e]; exact .same _

/-- A key for which it does not matter whether negative indices are counted from the end. -/
def NegSame (env : Env) (k : V) : Prop := ∀ acc src, valsByKey env acc src k false = valsByKey env acc src k true

theorem negSame_name (s : Bytes) : NegSame env (.name s) := by
  intro acc src
  cases src <;> rfl

theorem negSame_int {n : Int64} (h : 0 ≤ n.toInt) : NegSame env (.int n) := by
  intro acc src
  have : ¬ n < 0 := by
    rw [Int64.lt_iff_toInt_lt]
    show ¬ n.toInt < 0
    omega
  cases src <;> simp [valsByKey, valByKey, cvi, isInt, this]

theorem evalStep_neg {a : Val} {k : V} (ha : ∀ oracle root dot t, evalVal env oracle root dot a t = .ok (k, t)) (hk : NegSame env k)
    {oracle : Oracle} {root : V} (out : GoSlice) (t : Nat) :
    evalStep env oracle root ⟨.member, [a]⟩ out t = evalStep env oracle root ⟨.select, [a]⟩ out t ∧
    evalStep env oracle root ⟨.nestMember, [a]⟩ out t = evalStep env oracle root ⟨.nestSelect, [a]⟩ out t := by
  have hk' : (fun (_ : Nat) el acc => valsByKey env acc el k (Op.member == .select)) =
      fun (_ : Nat) el acc => valsByKey env acc el k (Op.select == .select) := by
    funext _ el acc; exact hk acc el
  constructor
  · simp only [evalStep, evalVals, ha, Res.bind_ok, hk']
  · have hv : ∀ (l : List V) (out : GoSlice) (t : Nat), visits env oracle root ⟨.nestMember, [a]⟩ l out t =
        visits env oracle root ⟨.nestSelect, [a]⟩ l out t := by
      intro l
      induction l with
      | nil => intro out t; rfl
      | cons v r ih =>
        intro out t
        simp only [visits, evalVals, ha, Res.bind_ok, visit, hk out v]
        congr 1
        funext o
        exact ih o _
    simp only [evalStep, loop, hv]

theorem sameStep_eval {s s' : Step} (h : SameStep s s') (oracle : Oracle) (root : V) (out : GoSlice) (t : Nat) :
    evalStep env oracle root s out t = evalStep env oracle root s' out t := by
  induction h with
  | refl => rfl
  | symm _ ih => exact ih.symm
  | trans _ _ ih1 ih2 => exact ih1.trans ih2
  | select h => exact evalStep_congr (.inr (.inl rfl)) (fun dot t => relVs_single (sameKey_rel h oracle root dot t)) out t
  | nestSelect h =>
    exact evalStep_congr (.inr (.inr (.inr (.inr (.inl rfl))))) (fun dot t => relVs_single (sameKey_rel h oracle root dot t)) out t
  | union h => exact evalStep_congr (.inr (.inr (.inl rfl))) (fun dot t => sameKeys_rel h oracle root dot t) out t
  | nestUnion h =>
    exact evalStep_congr (.inr (.inr (.inr (.inr (.inr rfl))))) (fun dot t => sameKeys_rel h oracle root dot t) out t
  | name s => exact (evalStep_neg (fun _ _ _ _ => rfl) (negSame_name s) out t).1
  | nestName s => exact (evalStep_neg (fun _ _ _ _ => rfl) (negSame_name s) out t).2
  | index n h => exact (evalStep_neg (fun _ _ _ _ => rfl) (negSame_int h) out t).1
  | nestIndex n h => exact (evalStep_neg (fun _ _ _ _ => rfl) (negSame_int h) out t).2
  | nameExpr s =>
    exact evalStep_congr (.inl rfl) (fun dot t => relVs_single (.ok _ _ _ (keySame_name s).symm)) out t
  | nestNameExpr s =>
    exact evalStep_congr (.inr (.inr (.inr (.inl rfl)))) (fun dot t => relVs_single (.ok _ _ _ (keySame_name s).symm)) out t

theorem sameSteps_eval {q q' : Path} (h : All2 SameStep q q') (oracle : Oracle) (root : V) (out : GoSlice) (t : Nat) :
    evalSteps env oracle root q out t = evalSteps env oracle root q' out t := by
  induction h generalizing out t with
  | nil => rfl
  | cons h1 _ ih =>
    simp only [evalSteps, sameStep_eval h1]
    congr 1
    funext x
    exact ih x.1 x.2

end JP
