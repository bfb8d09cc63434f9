import Verif.Spec.Eval
import Verif.Spec.Desc
import Verif.Proof.Slice
/-! Evaluation of well-formed paths: no run-time panic except an overflow of a slice's index, and
results that come from the document. -/
set_option linter.unusedSimpArgs false
namespace JP
open Spec

/-- `r` is a value with `Q`, or an error, or (unless `S`) a panic. -/
def Safe {α : Type} (S : Prop) (r : Res RErr α) (Q : α → Prop) : Prop :=
  match r with
  | .ok a => Q a
  | .err _ => True
  | .panic _ => ¬ S
  | .stuck => False

variable {S : Prop}

theorem Safe.bind {α β : Type} {r : Res RErr α} {f : α → Res RErr β} {Q : α → Prop} {Q' : β → Prop}
    (h : Safe S r Q) (hf : ∀ a, Q a → Safe S (f a) Q') : Safe S (r >>= f) Q' := by
  cases r with
  | ok a => exact hf a h
  | err e => exact trivial
  | panic m => exact h
  | stuck => exact h

theorem Safe.mono {α : Type} {r : Res RErr α} {Q Q' : α → Prop} (h : Safe S r Q) (hq : ∀ a, Q a → Q' a) :
    Safe S r Q' := by
  cases r with
  | ok a => exact hq a h
  | _ => exact h

theorem Safe.self {α : Type} {r : Res RErr α} (h : Safe S r (fun _ => True)) : Safe S r (fun a => r = .ok a) := by
  cases r with
  | ok a => rfl
  | _ => exact h

theorem Safe.ok {α : Type} {a : α} {Q : α → Prop} (h : Q a) : Safe S (.ok a) Q := h

/-! ### Values without slices -/

theorem Desc.trans {a b c : V} (h : Desc a b) (h2 : Desc b c) : Desc a c := by
  induction h2 with
  | root => exact h
  | elem _ hx ih => exact .elem ih hx
  | member _ hx ih => exact .member ih hx

/-- `v` is not, and does not contain, one of the evaluator's own slice values. -/
def NoSlice (v : V) : Prop := ∀ s, ¬ Desc v (.slice s)

theorem NoSlice.desc {v w : V} (h : NoSlice v) (hd : Desc v w) : NoSlice w := fun s hs => h s (hd.trans hs)

theorem desc_atom {v w : V} (h : Desc v w) (ha : ∀ xs, v ≠ .arr xs) (ho : ∀ kvs, v ≠ .obj kvs) : w = v := by
  induction h with
  | root => rfl
  | elem _ _ ih => exact absurd ih.symm (ha _)
  | member _ _ ih => exact absurd ih.symm (ho _)

theorem NoSlice.atom {v : V} (ha : ∀ xs, v ≠ .arr xs) (ho : ∀ kvs, v ≠ .obj kvs) (hs : ∀ s, v ≠ .slice s) : NoSlice v :=
  fun s h => hs s (desc_atom h ha ho).symm

theorem desc_arr {xs : List V} {w : V} (h : Desc (.arr xs) w) : w = .arr xs ∨ ∃ x ∈ xs, Desc x w := by
  induction h with
  | root => exact .inl rfl
  | @elem ys y _ hx ih =>
    rcases ih with ih | ⟨x, hx1, hx2⟩
    · cases ih; exact .inr ⟨y, hx, .root⟩
    · exact .inr ⟨x, hx1, .elem hx2 hx⟩
  | @member kvs k y _ hx ih =>
    rcases ih with ih | ⟨x, hx1, hx2⟩
    · cases ih
    · exact .inr ⟨x, hx1, .member hx2 hx⟩

theorem NoSlice.arr {xs : List V} (h : ∀ x ∈ xs, NoSlice x) : NoSlice (.arr xs) := by
  intro s hs
  rcases desc_arr hs with hs | ⟨x, h1, h2⟩
  · cases hs
  · exact h x h1 s h2

theorem NoSlice.null : NoSlice .null := .atom (by simp) (by simp) (by simp)
theorem NoSlice.bool (b : Bool) : NoSlice (.bool b) := .atom (by simp) (by simp) (by simp)
theorem NoSlice.int (n : Int64) : NoSlice (.int n) := .atom (by simp) (by simp) (by simp)
theorem NoSlice.gint (n : Int64) : NoSlice (.gint n) := .atom (by simp) (by simp) (by simp)
theorem NoSlice.float (f : F64) : NoSlice (.float f) := .atom (by simp) (by simp) (by simp)
theorem NoSlice.str (s : Bytes) : NoSlice (.str s) := .atom (by simp) (by simp) (by simp)
theorem NoSlice.num (s : Bytes) : NoSlice (.num s) := .atom (by simp) (by simp) (by simp)
theorem NoSlice.name (s : Bytes) : NoSlice (.name s) := .atom (by simp) (by simp) (by simp)
theorem NoSlice.re (s : Bytes) : NoSlice (.re s) := .atom (by simp) (by simp) (by simp)
theorem NoSlice.err (e : Err) : NoSlice (.err e) := .atom (by simp) (by simp) (by simp)
theorem NoSlice.nothing : NoSlice .nothing := .err _

theorem lookup_mem {kvs : List (Bytes × V)} {k : Bytes} {v : V} (h : lookup kvs k = some v) : (k, v) ∈ kvs := by
  induction kvs with
  | nil => cases h
  | cons kv r ih =>
    obtain ⟨k', w⟩ := kv
    unfold lookup at h
    split at h
    · next hk => cases h; subst hk; simp
    · exact List.mem_cons_of_mem _ (ih h)

theorem goIndex_mem {xs : List V} {i : Int64} {v : V} (h : goIndex xs i = some v) : v ∈ xs := by
  unfold goIndex at h
  split at h
  · cases h
  · exact List.mem_of_getElem? h

/-- A value selected by a key is null (selected from null) or found in the source. -/
theorem valByKey_desc {env : Env} {src key : V} {neg : Bool} {v : V} (h : valByKey env src key neg = some v) :
    v = .null ∨ Desc src v := by
  unfold valByKey at h
  split at h
  · exact .inr (.member .root (lookup_mem h))
  · next xs =>
    dsimp only at h
    generalize (if (neg && decide (cvi env key < 0)) = true then cvi env key + Int64.ofNat xs.length
      else cvi env key) = n at h
    split at h
    · exact .inr (.elem .root (goIndex_mem h))
    · cases h
  · cases h; exact .inl rfl
  · cases h

theorem opDot_noSlice {env : Env} {a b v : V} (ha : NoSlice a) (h : opDot env a b = .ok v) : NoSlice v := by
  unfold opDot at h
  split at h
  · cases h; exact .nothing
  · split at h
    · split at h
      · split at h <;> cases h <;> first | exact .int _ | exact .nothing
      · split at h
        · next key _ _ kvs _ =>
          cases h
          cases hv : valByKey env (.obj kvs) (.name key) false with
          | none => exact .nothing
          | some w =>
            rcases valByKey_desc hv with rfl | hd
            · exact .null
            · exact ha.desc hd
        · cases h; exact .nothing
    · cases h

theorem opIndex_noSlice {env : Env} {a b : V} (ha : NoSlice a) : NoSlice (opIndex env a b) := by
  unfold opIndex
  split
  · exact .nothing
  · split
    · next xs _ =>
      dsimp only
      generalize (if cvi env b < 0 then cvi env b + Int64.ofNat xs.length else cvi env b) = sel
      split
      · exact .nothing
      · cases hv : goIndex xs sel with
        | none => exact .nothing
        | some w => exact ha.desc (.elem .root (goIndex_mem hv))
    · next kvs _ =>
      cases hv : valByKey env (.obj kvs) b true with
      | none => exact .nothing
      | some w =>
        rcases valByKey_desc hv with rfl | hd
        · exact .null
        · exact ha.desc hd
    · exact .nothing

theorem arith_noSlice {env : Env} {a b : V} {f g} : NoSlice (arith env a b f g) := by
  unfold arith
  repeat' split
  all_goals first | exact .nothing | exact .float _ | exact .int _

theorem divide_noSlice {env : Env} {a b : V} {f g} : NoSlice (divide env a b f g) := by
  unfold divide
  dsimp only
  repeat' split
  all_goals first | exact .nothing | exact .float _ | exact .int _

theorem relation_noSlice {env : Env} {a b : V} {f g h} : NoSlice (relation env a b f g h) := by
  unfold relation
  repeat' split
  all_goals first | exact .nothing | exact .bool _

theorem opMatch_noSlice {env : Env} {a b v : V} (h : opMatch env a b = .ok v) : NoSlice v := by
  unfold opMatch at h
  dsimp only at h
  split at h
  · cases h; exact .nothing
  · repeat' split at h
    all_goals first | (cases h; done) | (cases h; exact .bool _)

theorem opIn_noSlice {env : Env} {op : Op} {a b v : V} (h : opIn env op a b = .ok v) : NoSlice v := by
  unfold opIn at h
  split at h
  · cases h; exact .nothing
  · split at h
    · cases h; exact .bool _
    · cases h

theorem binop_noSlice {env : Env} {op : Op} {a b v : V} (hop : op ≠ .slice) (ha : NoSlice a) (hb : NoSlice b)
    (h : binop env op a b = some (.ok v)) : NoSlice v := by
  cases op <;> simp only [binop, Option.some.injEq, reduceCtorEq, Res.ok.injEq] at h
  case dot => exact opDot_noSlice ha h
  case index => subst h; exact opIndex_noSlice ha
  case slice => exact absurd rfl hop
  case or =>
    subst h; unfold opOr
    split
    · exact .nothing
    · split
      · exact ha
      · exact hb
  case and =>
    subst h; unfold opAnd
    split
    · exact ha
    · exact hb
  case match_ => exact opMatch_noSlice h
  case in_ => exact opIn_noSlice h
  case nin => exact opIn_noSlice h
  all_goals
    subst h
    first | exact arith_noSlice | exact divide_noSlice | exact relation_noSlice | exact .bool _

theorem unop_noSlice {env : Env} {op : Op} {a v : V} (ha : NoSlice a)
    (h : unop env op a = some v) : NoSlice v := by
  cases op <;> simp only [unop, Option.some.injEq, reduceCtorEq] at h
  case exp =>
    subst h; unfold opExp
    split
    · exact .nothing
    · split
      · exact ha
      · exact .int _
  case neg =>
    subst h; unfold opNeg
    split
    · exact .nothing
    · split
      · exact .float _
      · exact .int _
  case not => subst h; exact .bool _

theorem mem_permute {α : Type} {p : List Nat} {xs : List α} {x : α} (h : x ∈ permute p xs) : x ∈ xs := by
  unfold permute at h
  rw [List.mem_filterMap] at h
  obtain ⟨i, _, hi⟩ := h
  exact List.mem_of_getElem? hi

theorem arithLoop_noSlice {env : Env} {f} : ∀ {i : Nat} {r : F64} {xs : List V}, NoSlice (arithLoop env f i r xs)
  | _, _, [] => by unfold arithLoop; exact .float _
  | _, _, v :: r => by unfold arithLoop; split; exact .err _; exact arithLoop_noSlice

theorem arithArrayOp_noSlice {env : Env} {f} {xs : List V} : NoSlice (arithArrayOp env xs f) := by
  unfold arithArrayOp; split; exact .null; exact arithLoop_noSlice

theorem stringLoop_noSlice {f} {xs : List V} : ∀ {i : Nat} {r : Bytes}, NoSlice (stringLoop f i r xs) := by
  induction xs with
  | nil => intro i r; unfold stringLoop; exact .str _
  | cons v xs ih =>
    intro i r
    cases v <;> unfold stringLoop <;> first | exact ih | exact .err _

theorem stringArrayOp_noSlice {f} {xs : List V} : NoSlice (stringArrayOp xs f) := by
  unfold stringArrayOp; split; exact .null; exact stringLoop_noSlice

theorem minMax_noSlice {env : Env} {f g} {xs : List V} : NoSlice (minMaxArray env xs f g) := by
  unfold minMaxArray
  split
  all_goals first | exact .null | exact arithArrayOp_noSlice | exact stringArrayOp_noSlice | exact .err _

theorem avgLoop_noSlice {env : Env} {n : Nat} : ∀ {s : F64} {xs : List V}, NoSlice (avgLoop env n s xs)
  | _, [] => by unfold avgLoop; exact .float _
  | _, v :: r => by unfold avgLoop; split; exact .err _; exact avgLoop_noSlice

theorem fnApply_noSlice {env : Env} {ord : Ord} {f : Fn} {args : List V} {v : V}
    (h : f.apply env ord args = .ok v) : NoSlice v := by
  unfold Fn.apply at h
  repeat' split at h
  all_goals
    first
      | (cases h; done)
      | skip
  all_goals
    injection h with h
    subst h
    repeat' split
    all_goals first
      | exact .null | exact .int _ | exact .gint _ | exact .float _ | exact .str _ | exact .bool _ | exact .err _
      | exact .nothing | exact avgLoop_noSlice | exact minMax_noSlice | exact arithArrayOp_noSlice
      | skip
  · refine .arr (fun x hx => ?_)
    have := mem_permute hx
    rw [List.mem_map] at this
    obtain ⟨_, _, rfl⟩ := this
    exact .str _
  · refine .arr (fun x hx => ?_)
    rw [List.mem_map] at hx
    obtain ⟨_, _, rfl⟩ := hx
    exact .str _

theorem call_noSlice {env : Env} {ord : Ord} {id : Bytes} {args : List V} {v : V}
    (h : call env ord id args = .ok v) : NoSlice v := by
  unfold call at h
  repeat' split at h
  all_goals first | (cases h; done) | exact fnApply_noSlice h

theorem applyOp_noSlice {env : Env} {ord : Ord} {op : Op} {vs : List V} {v : V} (hop : op ≠ .slice)
    (hvs : ∀ w ∈ vs, NoSlice w) (h : applyOp env ord op vs = .ok v) : NoSlice v := by
  unfold applyOp at h
  split at h
  · cases h; exact .arr hvs
  · split at h
    · exact call_noSlice h
    · cases h
  · split at h
    · split at h
      · next hu => cases h; exact unop_noSlice (hvs _ (by simp)) hu
      · cases h
    · split at h
      · next hb => rw [h] at hb; exact binop_noSlice hop (hvs _ (by simp)) (hvs _ (by simp)) hb
      · cases h
    · cases h

/-! ### Expressions -/

theorem call_safe (env : Env) (ord : Ord) (id : Bytes) (args : List V) : Safe S (call env ord id args) (fun _ => True) := by
  unfold call
  split
  · trivial
  · next f hf =>
    split
    · next na hna =>
      split
      · trivial
      · next hlen =>
        have hl : args.length = na := by simpa using hlen
        cases f <;> simp only [Fn.arity, Option.some.injEq, reduceCtorEq] at hna <;> subst hna
        case contains | ends_with | starts_with | tokenize =>
          obtain ⟨a, b, rfl⟩ : ∃ a b, args = [a, b] := by
            match args, hl with
            | [a, b], _ => exact ⟨a, b, rfl⟩
          simp only [Fn.apply]
          first
            | exact trivial
            | (cases a <;> cases b <;> exact trivial)
        all_goals
          obtain ⟨a, rfl⟩ : ∃ a, args = [a] := by
            match args, hl with
            | [a], _ => exact ⟨a, rfl⟩
          simp only [Fn.apply]
          exact trivial
    · next hna =>
      cases f <;> simp only [Fn.arity, reduceCtorEq] at hna
      all_goals
        match args with
        | [] => exact trivial
        | [a] => simp only [Fn.apply]; exact trivial
        | a :: b :: r => simp only [Fn.apply]; exact trivial

/-- The values of operands: names evaluate to names. -/
inductive KidVals : List Expr → List V → Prop
  | nil : KidVals [] []
  | cons {e v es vs} : (∀ s, e = .name s → v = .name s) → KidVals es vs → KidVals (e :: es) (v :: vs)

theorem opMatch_safe (env : Env) (a b : V) : Safe S (opMatch env a b) (fun _ => True) := by
  unfold opMatch
  split
  · trivial
  · dsimp only
    split
    · split <;> trivial
    · split
      · split <;> trivial
      · trivial
    · trivial

theorem opIn_safe (env : Env) (op : Op) (a b : V) : Safe S (opIn env op a b) (fun _ => True) := by
  unfold opIn
  split
  · trivial
  · split <;> trivial

theorem opDot_safe (env : Env) (a : V) (s : Bytes) : Safe S (opDot env a (.name s)) (fun _ => True) := by
  unfold opDot
  split
  · trivial
  · dsimp only
    split
    · split <;> trivial
    · split <;> trivial

mutual
theorem evalExpr_safe (env : Env) (oracle : Oracle) (root dot : V) (hr : NoSlice root) (hd : NoSlice dot) : ∀ (e : Expr) (_ : e.WF) (t : Nat),
    Safe S (evalExpr env oracle root dot e t) (fun r => (∀ s, e = .name s → r.1 = .name s) ∧ NoSlice r.1)
  | .int n, _, t => by unfold evalExpr; exact Safe.ok ⟨by simp, .int _⟩
  | .float n, _, t => by unfold evalExpr; exact Safe.ok ⟨by simp, .float _⟩
  | .str n, _, t => by unfold evalExpr; exact Safe.ok ⟨by simp, .str _⟩
  | .bool n, _, t => by unfold evalExpr; exact Safe.ok ⟨by simp, .bool _⟩
  | .null, _, t => by unfold evalExpr; exact Safe.ok ⟨by simp, .null⟩
  | .name n, _, t => by unfold evalExpr; exact Safe.ok ⟨by simp, .name _⟩
  | .re n, _, t => by unfold evalExpr; exact Safe.ok ⟨by simp, .re _⟩
  | .current, _, t => by unfold evalExpr; exact Safe.ok ⟨by simp, hd⟩
  | .root, _, t => by unfold evalExpr; exact Safe.ok ⟨by simp, hr⟩
  | .inner op kids, h, t => by
    unfold evalExpr
    have hk : Exprs.WF kids := by
      cases h with
      | unary _ _ _ h => exact .cons _ _ h .nil
      | binary _ _ _ _ h1 h2 => exact .cons _ _ h1 (.cons _ _ h2 .nil)
      | dot _ _ h => exact .cons _ _ h (.cons _ _ (.name _) .nil)
      | array _ h => exact h
      | call _ _ h => exact .cons _ _ (.name _) h
    refine Safe.bind (evalKids_safe env oracle root dot hr hd kids hk t) ?_
    rintro ⟨vs, t'⟩ ⟨hvs, hns⟩
    simp only at hvs hns
    have hop : op ≠ .slice := by rintro rfl; cases h <;> simp_all [Op.isUnary, Op.isBinary]
    refine Safe.bind (Q := fun v => applyOp env (oracle t') op vs = .ok v) ?_
      (fun v hv => Safe.ok ⟨by simp, applyOp_noSlice hop hns hv⟩)
    refine Safe.self ?_
    cases h with
    | unary _ _ hop _ =>
      cases hvs with
      | cons _ hvs => cases hvs; cases op <;> simp only [Op.isUnary, Bool.false_eq_true] at hop <;> exact trivial
    | binary _ _ _ hop _ _ =>
      cases hvs with
      | cons _ hvs =>
      cases hvs with
      | cons _ hvs =>
      cases hvs
      cases op <;> simp only [Op.isBinary, Bool.false_eq_true] at hop <;> first
        | exact opMatch_safe _ _ _
        | exact opIn_safe _ _ _ _
        | exact trivial
    | dot _ s _ =>
      cases hvs with
      | cons _ hvs =>
      cases hvs with
      | cons hn hvs =>
      cases hvs
      rw [hn s rfl]
      exact opDot_safe _ _ _
    | array => exact trivial
    | call f es _ =>
      cases hvs with
      | cons hn hvs =>
      rw [hn f rfl]
      exact call_safe _ _ _ _
theorem evalKids_safe (env : Env) (oracle : Oracle) (root dot : V) (hr : NoSlice root) (hd : NoSlice dot) : ∀ (es : List Expr)
    (_ : Exprs.WF es) (t : Nat), Safe S (evalKids env oracle root dot es t) (fun r => KidVals es r.1 ∧ ∀ v ∈ r.1, NoSlice v)
  | [], _, t => by unfold evalKids; exact Safe.ok ⟨.nil, by simp⟩
  | e :: r, h, t => by
    cases h with
    | cons _ _ h1 h2 =>
    unfold evalKids
    refine Safe.bind (evalExpr_safe env oracle root dot hr hd e h1 t) ?_
    rintro ⟨v, t1⟩ ⟨hv, hv2⟩
    refine Safe.bind (evalKids_safe env oracle root dot hr hd r h2 t1) ?_
    rintro ⟨vs, t2⟩ ⟨hvs, hvs2⟩
    refine Safe.ok ⟨.cons hv hvs, ?_⟩
    intro w hw
    rcases List.mem_cons.1 hw with rfl | hw
    · exact hv2
    · exact hvs2 w hw
end

/-! ### Selection -/

/-- `v` is a child of `src`. -/
def Child (src v : V) : Prop :=
  (∃ xs, src = .arr xs ∧ v ∈ xs) ∨ (∃ kvs k, src = .obj kvs ∧ (k, v) ∈ kvs)

theorem Child.desc {root src v : V} (h : Child src v) (hd : Desc root src) : Desc root v := by
  rcases h with ⟨xs, rfl, hx⟩ | ⟨kvs, k, rfl, hx⟩
  · exact .elem hd hx
  · exact .member hd hx

theorem not_child_null {v : V} : ¬ Child .null v := by
  rintro (⟨_, h, _⟩ | ⟨_, _, h, _⟩) <;> cases h

/-- The stride of a slice is small enough for every array under `root`. -/
def StrideOk (root : V) (s : Slice) : Prop := ∀ xs, Desc root (.arr xs) → (xs.length : Int) + s.strideInt ≤ 2 ^ 63

/-- The arrays under `root` fit in memory. -/
def LensOk (root : V) : Prop := ∀ xs, Desc root (.arr xs) → xs.length < 2 ^ 63

/-- A selector is not a slice, or one that is safe. -/
def SelOk (S : Prop) (root key : V) : Prop := ∀ s, key = .slice s → S → StrideOk root s

theorem SelOk.of_noSlice {root key : V} (h : NoSlice key) : SelOk S root key := by
  rintro s rfl; exact absurd .root (h s)

theorem mem_appendAll {s : GoSlice} {vs : List V} {v : V} : v ∈ (s.appendAll vs).elems ↔ v ∈ s.elems ∨ v ∈ vs := by
  unfold GoSlice.appendAll
  split
  · simp
  · simp [GoSlice.elems]

theorem mem_append {s : GoSlice} {w v : V} : v ∈ (s.append w).elems ↔ v ∈ s.elems ∨ v = w := by
  simp [GoSlice.append, GoSlice.elems]

theorem sliceVals_safe {root : V} {xs : List V} {s : Slice} (hl : LensOk root) (hd : Desc root (.arr xs))
    (hs : S → StrideOk root s) : Safe S (sliceVals xs s) (fun vs => ∀ v ∈ vs, v ∈ xs) := by
  obtain ⟨h1, h2⟩ := sliceVals_spec xs s (hl xs hd)
  by_cases hov : ∃ j ∈ s.indices xs.length, 2 ^ 63 ≤ (j : Int) + s.strideInt
  · rw [h2 hov]
    intro hS
    obtain ⟨j, hj, hj2⟩ := hov
    have := hs hS xs hd
    have hlt : j < xs.length := by
      unfold Slice.indices sliceIndices at hj
      dsimp only at hj
      split at hj
      · exact (mem_upIdx.1 hj).1
      · split at hj
        · exact (mem_downIdx.1 hj).1
        · cases hj
    omega
  · rw [h1 (fun j hj => by
      apply Decidable.byContradiction
      intro hc
      exact hov ⟨j, hj, by omega⟩)]
    intro v hv
    unfold sliceOf at hv
    rw [List.mem_filterMap] at hv
    obtain ⟨i, _, hi⟩ := hv
    exact List.mem_of_getElem? hi

/-- A value of the result set, or a null that a filter made up (only if `N`). -/
def From (N : Prop) (root v : V) : Prop := Desc root v ∨ (N ∧ v = .null)

theorem From.child {N : Prop} {root src v : V} (h : From N root src) (hc : Child src v) : Desc root v := by
  rcases h with h | ⟨_, rfl⟩
  · exact hc.desc h
  · exact absurd hc not_child_null

theorem valsByKey_safe {N : Prop} {env : Env} {root : V} {vals : GoSlice} {src key : V} {neg : Bool} (hl : LensOk root)
    (hsrc : From N root src) (hk : SelOk S root key) :
    Safe S (valsByKey env vals src key neg) (fun r => ∀ v ∈ r.elems, v ∈ vals.elems ∨ Child src v) := by
  unfold valsByKey
  split
  · next s =>
    split
    · next xs =>
      have hd : Desc root (.arr xs) := by
        rcases hsrc with h | ⟨_, h⟩
        · exact h
        · cases h
      refine Safe.bind (sliceVals_safe hl hd (hk s rfl)) ?_
      intro vs hvs
      refine Safe.ok ?_
      intro v hv
      rcases mem_appendAll.1 hv with hv | hv
      · exact .inl hv
      · exact .inr (.inl ⟨xs, rfl, hvs v hv⟩)
    · exact Safe.ok (by simp [GoSlice.elems])
  · split
    · next xs =>
      split
      · split
        · next w hw =>
          refine Safe.ok ?_
          intro v hv
          rcases mem_append.1 hv with hv | rfl
          · exact .inl hv
          · unfold valByKey at hw
            dsimp only at hw
            generalize (if (neg && decide (cvi env key < 0)) = true then cvi env key + Int64.ofNat xs.length
              else cvi env key) = n at hw
            split at hw
            · exact .inr (.inl ⟨xs, rfl, goIndex_mem hw⟩)
            · cases hw
        · exact Safe.ok (fun v hv => .inl hv)
      · exact Safe.ok (fun v hv => .inl hv)
    · next kvs =>
      split
      · next w hw =>
        refine Safe.ok ?_
        intro v hv
        rcases mem_append.1 hv with hv | rfl
        · exact .inl hv
        · exact .inr (.inr ⟨kvs, _, rfl, lookup_mem hw⟩)
      · exact Safe.ok (fun v hv => .inl hv)
    · exact Safe.ok (fun v hv => .inl hv)

theorem unionByKeys_safe {N : Prop} {env : Env} {root : V} {src : V} (hl : LensOk root) (hsrc : From N root src) :
    ∀ (sels : List V) (vals : GoSlice), (∀ k ∈ sels, SelOk S root k) →
    Safe S (unionByKeys env vals src sels) (fun r => ∀ v ∈ r.elems, v ∈ vals.elems ∨ Child src v)
  | [], vals, _ => by unfold unionByKeys; exact Safe.ok (fun v hv => .inl hv)
  | k :: r, vals, h => by
    unfold unionByKeys
    split
    · exact unionByKeys_safe hl hsrc r vals (fun k hk => h k (by simp [hk]))
    · refine Safe.bind (valsByKey_safe hl hsrc (h k (by simp))) ?_
      intro vals' hv'
      refine Safe.mono (unionByKeys_safe hl hsrc r vals' (fun k hk => h k (by simp [hk]))) ?_
      intro a ha v hv
      rcases ha v hv with hv | hv
      · exact hv' v hv
      · exact .inr hv

theorem mem_children {ord : Ord} {loc : List Nat} {src v : V} (h : v ∈ children ord loc src) : Child src v := by
  unfold children at h
  split at h
  · exact .inl ⟨_, rfl, h⟩
  · have := mem_permute h
    rw [List.mem_map] at this
    obtain ⟨⟨k, w⟩, h1, rfl⟩ := this
    exact .inr ⟨_, k, rfl, h1⟩
  · cases h

theorem applySelection_safe {f : Nat → V → GoSlice → Res RErr GoSlice} : ∀ (l : List V) (k : Nat) (acc : GoSlice),
    (∀ src ∈ l, ∀ k acc, Safe S (f k src acc) (fun r => ∀ v ∈ r.elems, v ∈ acc.elems ∨ Child src v)) →
    Safe S (applySelection f k acc l) (fun r => ∀ v ∈ r.elems, v ∈ acc.elems ∨ ∃ src ∈ l, Child src v)
  | [], k, acc, _ => by unfold applySelection; exact Safe.ok (fun v hv => .inl hv)
  | src :: r, k, acc, h => by
    unfold applySelection
    refine Safe.bind (h src (by simp) k acc) ?_
    intro acc' h'
    refine Safe.mono (applySelection_safe r (k + 1) acc' (fun s hs => h s (by simp [hs]))) ?_
    intro a ha v hv
    rcases ha v hv with hv | ⟨s, hs, hc⟩
    · rcases h' v hv with hv | hv
      · exact .inl hv
      · exact .inr ⟨src, by simp, hv⟩
    · exact .inr ⟨s, by simp [hs], hc⟩

theorem mem_stepping {ord : Ord} : ∀ {l : List V} {k : Nat} {v : V}, v ∈ stepping ord k l → ∃ src ∈ l, Child src v
  | [], k, v, h => by simp [stepping] at h
  | w :: r, k, v, h => by
    unfold stepping at h
    rcases List.mem_append.1 h with h | h
    · exact ⟨w, by simp, mem_children h⟩
    · obtain ⟨s, hs, hc⟩ := mem_stepping h
      exact ⟨s, by simp [hs], hc⟩

mutual
theorem mem_walkdown {ord : Ord} : ∀ (src : V) {loc : List Nat} {v : V}, v ∈ walkdown ord loc src → Desc src v
  | .arr xs, loc, v, h => by
    unfold walkdown at h
    rcases List.mem_cons.1 h with rfl | h
    · exact .root
    · obtain ⟨x, hx, hd⟩ := mem_walkElems xs h
      exact Desc.trans (.elem .root hx) hd
  | .obj kvs, loc, v, h => by
    unfold walkdown at h
    rcases List.mem_cons.1 h with rfl | h
    · exact .root
    · rw [List.mem_flatten] at h
      obtain ⟨l, hl, hv⟩ := h
      obtain ⟨k, x, hx, hd⟩ := mem_walkMembers kvs (mem_permute hl) hv
      exact Desc.trans (.member .root hx) hd
  | .null, loc, v, h => by simp [walkdown] at h; subst h; exact .root
  | .bool _, loc, v, h => by simp [walkdown] at h; subst h; exact .root
  | .gint _, loc, v, h => by simp [walkdown] at h; subst h; exact .root
  | .int _, loc, v, h => by simp [walkdown] at h; subst h; exact .root
  | .float _, loc, v, h => by simp [walkdown] at h; subst h; exact .root
  | .str _, loc, v, h => by simp [walkdown] at h; subst h; exact .root
  | .num _, loc, v, h => by simp [walkdown] at h; subst h; exact .root
  | .name _, loc, v, h => by simp [walkdown] at h; subst h; exact .root
  | .re _, loc, v, h => by simp [walkdown] at h; subst h; exact .root
  | .slice _, loc, v, h => by simp [walkdown] at h; subst h; exact .root
  | .err _, loc, v, h => by simp [walkdown] at h; subst h; exact .root
theorem mem_walkElems {ord : Ord} : ∀ (xs : List V) {loc : List Nat} {i : Nat} {v : V}, v ∈ walkElems ord loc i xs →
    ∃ x ∈ xs, Desc x v
  | [], loc, i, v, h => by simp [walkElems] at h
  | x :: r, loc, i, v, h => by
    unfold walkElems at h
    rcases List.mem_append.1 h with h | h
    · split at h
      · exact ⟨x, by simp, mem_walkdown x h⟩
      · cases h
    · obtain ⟨y, hy, hd⟩ := mem_walkElems r h
      exact ⟨y, by simp [hy], hd⟩
theorem mem_walkMembers {ord : Ord} : ∀ (kvs : List (Bytes × V)) {loc : List Nat} {i : Nat} {l : List V} {v : V},
    l ∈ walkMembers ord loc i kvs → v ∈ l → ∃ k x, (k, x) ∈ kvs ∧ Desc x v
  | [], loc, i, l, v, h, _ => by simp [walkMembers] at h
  | (k, x) :: r, loc, i, l, v, h, hv => by
    unfold walkMembers at h
    rcases List.mem_cons.1 h with rfl | h
    · split at hv
      · exact ⟨k, x, by simp, mem_walkdown x hv⟩
      · cases hv
    · obtain ⟨k', y, hy, hd⟩ := mem_walkMembers r h hv
      exact ⟨k', y, by simp [hy], hd⟩
end

theorem mem_walker {ord : Ord} : ∀ {l : List V} {k : Nat} {v : V}, v ∈ walker ord k l → ∃ src ∈ l, isStructure src = true ∧ Desc src v
  | [], k, v, h => by simp [walker] at h
  | w :: r, k, v, h => by
    unfold walker at h
    rcases List.mem_append.1 h with h | h
    · split at h
      · next hst => exact ⟨w, by simp, hst, mem_walkdown w h⟩
      · cases h
    · obtain ⟨s, hs, hc⟩ := mem_walker h
      exact ⟨s, by simp [hs], hc⟩

/-! ### Steps -/

/-- All slices of the arguments of a step are safe. -/
def Val.SlicesOk (root : V) : Val → Prop
  | .slice s => StrideOk root s
  | _ => True

theorem evalVal_safe {env : Env} {oracle : Oracle} {root dot : V} (hr : NoSlice root) (hd : NoSlice dot)
    (v : Val) (hw : v.WF) (hs : S → v.SlicesOk root) (t : Nat) :
    Safe S (evalVal env oracle root dot v t) (fun r => SelOk S root r.1) := by
  cases v with
  | expr e =>
    simp only [evalVal]
    exact Safe.mono (evalExpr_safe env oracle root dot hr hd e hw t) (fun a ha => .of_noSlice ha.2)
  | slice s => exact Safe.ok (by rintro s' ⟨⟩ hS; exact hs hS)
  | name _ => exact Safe.ok (.of_noSlice (.name _))
  | int _ => exact Safe.ok (.of_noSlice (.int _))
  | str _ => exact Safe.ok (.of_noSlice (.str _))

theorem evalVals_safe {env : Env} {oracle : Oracle} {root dot : V} (hr : NoSlice root) (hd : NoSlice dot) :
    ∀ (vs : List Val) (_ : ∀ v ∈ vs, v.WF) (_ : ∀ v ∈ vs, S → v.SlicesOk root) (t : Nat),
    Safe S (evalVals env oracle root dot vs t) (fun r => r.1.length = vs.length ∧ ∀ k ∈ r.1, SelOk S root k)
  | [], _, _, t => by unfold evalVals; exact Safe.ok (by simp)
  | v :: r, hw, hs, t => by
    unfold evalVals
    refine Safe.bind (evalVal_safe hr hd v (hw v (by simp)) (hs v (by simp)) t) ?_
    rintro ⟨x, t1⟩ hx
    refine Safe.bind (evalVals_safe hr hd r (fun v hv => hw v (by simp [hv])) (fun v hv => hs v (by simp [hv])) t1) ?_
    rintro ⟨xs, t2⟩ ⟨hlen, hxs⟩
    refine Safe.ok ⟨by simpa using hlen, ?_⟩
    intro k hk
    rcases List.mem_cons.1 hk with rfl | hk
    · exact hx
    · exact hxs k hk

/-- Is the operator one of those that keep the value visited? -/
def Op.isFilter (op : Op) : Bool := op == .filter || op == .nestFilter

theorem visit_safe {N : Prop} {env : Env} {ord : Ord} {root dot : V} {s : Step} (hw : s.WF)
    (hloop : s.op = .filter ∨ s.op = .nestFilter ∨ s.op = .nestMember ∨ s.op = .nestSelect ∨ s.op = .nestUnion ∨ s.op = .nestWild)
    (hl : LensOk root) (hdot : From N root dot) {vs : List V} (hlen : vs.length = s.args.length)
    (hvs : ∀ k ∈ vs, SelOk S root k) (out : GoSlice) :
    Safe S (visit env ord s.op dot vs out) (fun r => ∀ v ∈ r.elems,
      v ∈ out.elems ∨ Child dot v ∨ (s.op.isFilter = true ∧ v = dot)) := by
  have hone : (∃ v, s.args = [v]) → ∃ v, vs = [v] := by
    rintro ⟨v, hv⟩
    rw [hv] at hlen
    match vs, hlen with
    | [w], _ => exact ⟨w, rfl⟩
  have h2 := hw.2
  have hfilter : ∀ v, Safe S (.ok (if (!isNothing v && cvb env v) = true then out.append dot else out)) (fun r => ∀ v ∈ r.elems,
      v ∈ out.elems ∨ Child dot v ∨ (true = true ∧ v = dot)) := by
    intro v
    refine Safe.ok ?_
    split
    · intro w hw
      rcases mem_append.1 hw with hw | hw
      · exact .inl hw
      · exact .inr (.inr ⟨rfl, hw⟩)
    · exact fun w hw => .inl hw
  have hsel : ∀ sel neg, SelOk S root sel → Safe S (if isNothing sel then .ok out else valsByKey env out dot sel neg)
      (fun r => ∀ v ∈ r.elems, v ∈ out.elems ∨ Child dot v ∨ (false = true ∧ v = dot)) := by
    intro sel neg hsel
    split
    · exact Safe.ok (fun w hw => .inl hw)
    · refine Safe.mono (valsByKey_safe hl hdot hsel) ?_
      intro r hr v hv
      rcases hr v hv with h | h
      · exact .inl h
      · exact .inr (.inl h)
  rcases hloop with h | h | h | h | h | h <;> rw [h] at h2 <;> simp only [h] at hlen ⊢
  · obtain ⟨e, he⟩ := h2
    obtain ⟨v, rfl⟩ := hone ⟨_, he⟩
    exact hfilter v
  · obtain ⟨e, he⟩ := h2
    obtain ⟨v, rfl⟩ := hone ⟨_, he⟩
    exact hfilter v
  · obtain ⟨v, rfl⟩ := hone h2
    exact hsel v false (hvs v (by simp))
  · obtain ⟨v, rfl⟩ := hone h2
    exact hsel v true (hvs v (by simp))
  · refine Safe.mono (unionByKeys_safe hl hdot vs out hvs) ?_
    intro r hr v hv
    rcases hr v hv with h | h
    · exact .inl h
    · exact .inr (.inl h)
  · have : vs = [] := by
      rw [h2] at hlen
      simpa using hlen
    subst this
    refine Safe.ok ?_
    intro v hv
    rcases mem_appendAll.1 hv with hv | hv
    · exact .inl hv
    · exact .inr (.inl (mem_children hv))

theorem visits_safe {N : Prop} {env : Env} {oracle : Oracle} {root : V} {s : Step} (hw : s.WF)
    (hloop : s.op = .filter ∨ s.op = .nestFilter ∨ s.op = .nestMember ∨ s.op = .nestSelect ∨ s.op = .nestUnion ∨ s.op = .nestWild)
    (hr : NoSlice root) (hl : LensOk root) (hs : ∀ v ∈ s.args, S → v.SlicesOk root) :
    ∀ (vals : List V) (out : GoSlice) (t : Nat), (∀ v ∈ vals, From N root v) →
    Safe S (visits env oracle root s vals out t) (fun r => ∀ v ∈ r.1.elems,
      v ∈ out.elems ∨ ∃ d ∈ vals, Child d v ∨ (s.op.isFilter = true ∧ v = d))
  | [], out, t, _ => by unfold visits; exact Safe.ok (fun v hv => .inl hv)
  | dot :: r, out, t, h => by
    unfold visits
    have hdot := h dot (by simp)
    have hnd : NoSlice dot := by
      rcases hdot with h | ⟨_, rfl⟩
      · exact hr.desc h
      · exact .null
    refine Safe.bind (evalVals_safe hr hnd s.args hw.1 hs t) ?_
    rintro ⟨vs, t1⟩ ⟨hlen, hvs⟩
    refine Safe.bind (visit_safe hw hloop hl hdot hlen hvs out) ?_
    intro out1 ho1
    refine Safe.mono (visits_safe hw hloop hr hl hs r out1 _ (fun v hv => h v (by simp [hv]))) ?_
    intro a ha v hv
    rcases ha v hv with hv | ⟨d, hd, hc⟩
    · rcases ho1 v hv with hv | hv
      · exact .inl hv
      · exact .inr ⟨dot, by simp, hv⟩
    · exact .inr ⟨d, by simp [hd], hc⟩

theorem loop_safe {N : Prop} {env : Env} {oracle : Oracle} {root : V} {s : Step} (hw : s.WF)
    (hloop : s.op = .filter ∨ s.op = .nestFilter ∨ s.op = .nestMember ∨ s.op = .nestSelect ∨ s.op = .nestUnion ∨ s.op = .nestWild)
    (hN : s.op.isFilter = true → N)
    (hr : NoSlice root) (hl : LensOk root) (hs : ∀ v ∈ s.args, S → v.SlicesOk root)
    (vals : List V) (out : GoSlice) (t : Nat) (hv : ∀ v ∈ vals, From N root v) :
    Safe S (loop env oracle root s vals out t) (fun r => ∀ v ∈ r.1.elems, From N root v) := by
  unfold loop
  split
  · next he =>
    refine Safe.ok ?_
    intro v hv
    simp only [List.isEmpty_iff] at he
    rw [he] at hv; cases hv
  · have hvis : ∀ v ∈ visited vals, From True root v ∧ (v ≠ .null → From N root v) := by
      intro v hv'
      unfold visited at hv'
      split at hv'
      · rw [List.mem_singleton] at hv'; subst hv'; exact ⟨.inr ⟨trivial, rfl⟩, fun h => absurd rfl h⟩
      · have := hv v hv'
        refine ⟨?_, fun _ => this⟩
        rcases this with h | h
        · exact .inl h
        · exact .inr ⟨trivial, h.2⟩
    refine Safe.mono (visits_safe (N := True) hw hloop hr hl hs (visited vals) (some []) t (fun v hv => (hvis v hv).1)) ?_
    intro a ha v hv
    rcases ha v hv with hv | ⟨d, hd, hc | ⟨hf, rfl⟩⟩
    · simp [GoSlice.elems] at hv
    · exact .inl ((hvis d hd).1.child hc)
    · by_cases hn : v = .null
      · exact .inr ⟨hN hf, hn⟩
      · exact (hvis v hd).2 hn

theorem evalStep_safe {N : Prop} {env : Env} {oracle : Oracle} {root : V} {s : Step} (hw : s.WF)
    (hN : s.op.isFilter = true → N)
    (hr : NoSlice root) (hl : LensOk root) (hs : ∀ v ∈ s.args, S → v.SlicesOk root)
    (out : GoSlice) (t : Nat) (ho : ∀ v ∈ out.elems, From N root v) :
    Safe S (evalStep env oracle root s out t) (fun r => ∀ v ∈ r.1.elems, From N root v) := by
  have fin : ∀ (f : Nat → V → GoSlice → Res RErr GoSlice) (t : Nat),
      (∀ src ∈ out.elems, ∀ k acc, Safe S (f k src acc) (fun r => ∀ v ∈ r.elems, v ∈ acc.elems ∨ Child src v)) →
      Safe S (do
        let out ← applySelection f 0 (some []) out.elems
        Res.ok (out, t)) (fun r => ∀ v ∈ r.1.elems, From N root v) := by
    intro f t hf
    refine Safe.bind (applySelection_safe out.elems 0 (some []) hf) ?_
    intro a ha
    refine Safe.ok ?_
    intro v hv
    rcases ha v hv with hv | ⟨src, hsrc, hc⟩
    · simp [GoSlice.elems] at hv
    · exact .inl ((ho src hsrc).child hc)
  have hsel : ∀ neg, (∃ v, s.args = [v]) → Safe S (do
      let (vs, t) ← evalVals env oracle root .null s.args t
      match vs with
      | [sel] =>
        if isNothing sel then Res.ok (some [], t)
        else do
          let out ← applySelection (fun _ el acc => valsByKey env acc el sel neg) 0 (some []) out.elems
          Res.ok (out, t)
      | _ => .stuck : Res RErr (GoSlice × Nat)) (fun r => ∀ v ∈ r.1.elems, From N root v) := by
    rintro neg ⟨w, hv⟩
    refine Safe.bind (evalVals_safe hr .null s.args hw.1 hs t) ?_
    rintro ⟨vs, t1⟩ ⟨hlen, hvs⟩
    rw [hv] at hlen
    match vs, hlen with
    | [sel], _ =>
      simp only
      split
      · exact Safe.ok (by simp [GoSlice.elems])
      · exact fin _ t1 (fun src hsrc k acc => valsByKey_safe hl (ho src hsrc) (hvs sel (by simp)))
  have hwalk : ∀ t, Safe S (loop env oracle root s (walker (oracle t) 0 out.elems) out (t + 1))
      (fun r => ∀ v ∈ r.1.elems, From N root v) ∨ ¬ (s.op = .filter ∨ s.op = .nestFilter ∨ s.op = .nestMember ∨
        s.op = .nestSelect ∨ s.op = .nestUnion ∨ s.op = .nestWild) := by
    intro t
    by_cases hloop : s.op = .filter ∨ s.op = .nestFilter ∨ s.op = .nestMember ∨ s.op = .nestSelect ∨ s.op = .nestUnion ∨ s.op = .nestWild
    · refine .inl (loop_safe hw hloop hN hr hl hs _ out _ ?_)
      intro v hv
      obtain ⟨src, hsrc, hst, hd⟩ := mem_walker hv
      rcases ho src hsrc with h | ⟨_, rfl⟩
      · exact .inl (h.trans hd)
      · simp [isStructure] at hst
    · exact .inr hloop
  have h2 := hw.2
  unfold evalStep
  cases hop : s.op <;> rw [hop] at h2 <;> simp only at h2 ⊢
  case wild =>
    exact fin _ _ (fun src hsrc k acc => Safe.ok (by
      intro v hv
      rcases mem_appendAll.1 hv with hv | hv
      · exact .inl hv
      · exact .inr (mem_children hv)))
  case member => exact hsel _ h2
  case select => exact hsel _ h2
  case union =>
    refine Safe.bind (evalVals_safe hr .null s.args hw.1 hs t) ?_
    rintro ⟨vs, t1⟩ ⟨hlen, hvs⟩
    exact fin _ t1 (fun src hsrc k acc => unionByKeys_safe hl (ho src hsrc) vs acc hvs)
  case filter =>
    refine loop_safe hw (.inl hop) hN hr hl hs _ out _ ?_
    intro v hv
    obtain ⟨src, hsrc, hc⟩ := mem_stepping hv
    exact .inl ((ho src hsrc).child hc)
  all_goals
    rcases hwalk t with h | h
    · exact h
    · simp [hop] at h

theorem evalSteps_safe {N : Prop} {env : Env} {oracle : Oracle} {root : V} (hr : NoSlice root) (hl : LensOk root) :
    ∀ (p : Path) (_ : p.WF) (_ : ∀ s ∈ p, s.op.isFilter = true → N) (_ : ∀ s ∈ p, ∀ v ∈ s.args, S → v.SlicesOk root)
    (out : GoSlice) (t : Nat) (_ : ∀ v ∈ out.elems, From N root v),
    Safe S (evalSteps env oracle root p out t) (fun r => ∀ v ∈ r.1.elems, From N root v)
  | [], _, _, _, out, t, ho => by unfold evalSteps; exact Safe.ok ho
  | s :: r, hw, hN, hs, out, t, ho => by
    unfold evalSteps
    refine Safe.bind (evalStep_safe (hw s (by simp)) (hN s (by simp)) hr hl (hs s (by simp)) out t ho) ?_
    rintro ⟨out1, t1⟩ ho1
    exact evalSteps_safe hr hl r (fun x hx => hw x (by simp [hx])) (fun x hx => hN x (by simp [hx]))
      (fun x hx => hs x (by simp [hx])) out1 t1 ho1

/-- Evaluation of a well-formed path: a list of values from the document (or nulls, if there is a
filter), an error, or (only if some stride is too large) a panic. -/
theorem evalPath_safe {N : Prop} {env : Env} {oracle : Oracle} {root : V} (hr : NoSlice root) (hl : LensOk root)
    (p : Path) (hw : p.WF) (hN : ∀ s ∈ p, s.op.isFilter = true → N)
    (hs : ∀ s ∈ p, ∀ v ∈ s.args, S → v.SlicesOk root) :
    Safe S (evalPath env oracle root p) (fun r => ∃ vs, r = some vs ∧ ∀ v ∈ vs, From N root v) := by
  unfold evalPath
  refine Safe.bind (evalSteps_safe hr hl p hw hN hs (some [root]) 0 (by
    intro v hv; simp [GoSlice.elems] at hv; subst hv; exact .inl .root)) ?_
  rintro ⟨out, t⟩ ho
  exact Safe.ok ⟨_, rfl, ho⟩

end JP
