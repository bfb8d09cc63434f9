import Verif.Spec.Shape
import Verif.Proof.Select
import Verif.Proof.Perm
/-!
Evaluation of paths without filters on documents of the same shape.
-/
namespace JP
open Spec

section
variable {R : V → V → Prop}

/-- Related results, and the same errors. -/
inductive RelRes {α β : Type} (Q : α → β → Prop) : Res RErr α → Res RErr β → Prop
  | ok {a b} : Q a b → RelRes Q (.ok a) (.ok b)
  | err (e) : RelRes Q (.err e) (.err e)
  | panic (m) : RelRes Q (.panic m) (.panic m)
  | stuck : RelRes Q .stuck .stuck

theorem RelRes.bind {α β γ δ : Type} {Q : α → β → Prop} {Q' : γ → δ → Prop} {x : Res RErr α} {y : Res RErr β} {f : α → Res RErr γ}
    {g : β → Res RErr δ} (h : RelRes Q x y) (hf : ∀ a b, Q a b → RelRes Q' (f a) (g b)) : RelRes Q' (x >>= f) (y >>= g) := by
  cases h with
  | ok h => exact hf _ _ h
  | err e => exact .err e
  | panic m => exact .panic m
  | stuck => exact .stuck

theorem RelRes.refl {α : Type} (x : Res RErr α) : RelRes Eq x x := by
  cases x
  · exact .ok rfl
  · exact .err _
  · exact .panic _
  · exact .stuck

abbrev Shapes (R : V → V → Prop) : List V → List V → Prop := List.Forall₂ (SameShape R)

/-- Slices, nil or not. -/
inductive RelGo (R : V → V → Prop) : GoSlice → GoSlice → Prop
  | none : RelGo R none none
  | some {xs ys} : Shapes R xs ys → RelGo R (some xs) (some ys)

theorem RelGo.elems {s s' : GoSlice} (h : RelGo R s s') : Shapes R s.elems s'.elems := by
  cases h with
  | none => exact .nil
  | some h => exact h

theorem forall2_append {xs ys xs' ys' : List V} (h : Shapes R xs ys) (h' : Shapes R xs' ys') : Shapes R (xs ++ xs') (ys ++ ys') := by
  induction h with
  | nil => exact h'
  | cons h _ ih => exact .cons h ih

theorem RelGo.append {s s' : GoSlice} {v v' : V} (h : RelGo R s s') (hv : SameShape R v v') : RelGo R (s.append v) (s'.append v') :=
  .some (forall2_append h.elems (.cons hv .nil))

theorem RelGo.appendAll {s s' : GoSlice} {vs vs' : List V} (h : RelGo R s s') (hv : Shapes R vs vs') : RelGo R (s.appendAll vs) (s'.appendAll vs') := by
  cases hv with
  | nil => exact h
  | cons h1 h2 => exact .some (forall2_append h.elems (.cons h1 h2))

theorem forall2_get {α β : Type} {Q : α → β → Prop} {xs : List α} {ys : List β} (h : List.Forall₂ Q xs ys) (i : Nat) :
    (xs[i]? = none ∧ ys[i]? = none) ∨ ∃ x y, xs[i]? = some x ∧ ys[i]? = some y ∧ Q x y := by
  induction h generalizing i with
  | nil => exact .inl ⟨rfl, rfl⟩
  | cons h _ ih =>
    cases i with
    | zero => exact .inr ⟨_, _, rfl, rfl, h⟩
    | succ i => simpa using ih i

theorem permute_shape {α β : Type} {Q : α → β → Prop} {xs : List α} {ys : List β} (h : List.Forall₂ Q xs ys) (p : List Nat) :
    List.Forall₂ Q (permute p xs) (permute p ys) := by
  induction p with
  | nil => exact .nil
  | cons i p ih =>
    unfold permute at *
    rcases forall2_get h i with ⟨h1, h2⟩ | ⟨x, y, h1, h2, h3⟩
    · simpa [List.filterMap_cons, h1, h2] using ih
    · simpa [List.filterMap_cons, h1, h2] using ⟨h3, ih⟩

theorem scalar_cases {v : V} (h : Scalar v) : isStructure v = false ∧ (∀ ord loc, children ord loc v = []) := by
  cases v <;> first | exact h.elim | exact ⟨rfl, fun _ _ => rfl⟩

theorem shape_isStructure {a b : V} (h : SameShape R a b) : isStructure a = isStructure b := by
  cases h with
  | scalar ha hb => rw [(scalar_cases ha).1, (scalar_cases hb).1]
  | arr => rfl
  | obj => rfl

theorem children_shape (ord : Ord) (loc : List Nat) {a b : V} (h : SameShape R a b) : Shapes R (children ord loc a) (children ord loc b) := by
  cases h with
  | scalar ha hb => rw [(scalar_cases ha).2, (scalar_cases hb).2]; exact .nil
  | arr h => exact h
  | obj hk h =>
    have hl := congrArg List.length hk
    simp only [List.length_map] at hl
    simp only [children, hl]
    exact permute_shape h _

theorem flatten_shape {xs ys : List (List V)} (h : List.Forall₂ (Shapes R) xs ys) : Shapes R xs.flatten ys.flatten := by
  induction h with
  | nil => exact .nil
  | cons h _ ih => exact forall2_append h ih

mutual
theorem walkdown_shape (ord : Ord) : ∀ (loc : List Nat) (a b : V), SameShape R a b → Shapes R (walkdown ord loc a) (walkdown ord loc b)
  | loc, .arr xs, b, h => by
    cases h with
    | scalar h => exact h.elim
    | arr h => exact .cons (.arr h) (walkElems_shape ord loc 0 xs _ h)
  | loc, .obj ms, b, h => by
    cases h with
    | scalar h => exact h.elim
    | obj hk h =>
      have hl := congrArg List.length hk
      simp only [List.length_map] at hl
      simp only [walkdown, hl]
      exact .cons (.obj hk h) (flatten_shape (permute_shape (walkMembers_shape ord loc 0 ms _ h) _))
  | loc, .null, b, h | loc, .bool _, b, h | loc, .int _, b, h | loc, .gint _, b, h | loc, .float _, b, h | loc, .str _, b, h | loc, .num _, b, h
  | loc, .name _, b, h | loc, .re _, b, h | loc, .slice _, b, h | loc, .err _, b, h => by
    have hb : Scalar b := by cases h; assumption
    have : walkdown ord loc b = [b] := by cases b <;> first | exact hb.elim | simp [walkdown]
    rw [this]
    simp only [walkdown]
    exact .cons h .nil
theorem walkElems_shape (ord : Ord) : ∀ (loc : List Nat) (i : Nat) (xs ys : List V), Shapes R xs ys →
    Shapes R (walkElems ord loc i xs) (walkElems ord loc i ys)
  | _, _, [], _, h => by cases h; simp [walkElems]
  | loc, i, x :: xs, _, h => by
    cases h with
    | cons h hs =>
    simp only [walkElems, shape_isStructure h]
    refine forall2_append ?_ (walkElems_shape ord loc (i + 1) xs _ hs)
    split
    · exact walkdown_shape ord (i :: loc) x _ h
    · exact .nil
theorem walkMembers_shape (ord : Ord) : ∀ (loc : List Nat) (i : Nat) (ms ns : List (Bytes × V)), Shapes R (ms.map Prod.snd) (ns.map Prod.snd) →
    List.Forall₂ (Shapes R) (walkMembers ord loc i ms) (walkMembers ord loc i ns)
  | _, _, [], ns, h => by
    cases ns with
    | nil => simp [walkMembers]
    | cons => cases h
  | loc, i, (k, x) :: ms, ns, h => by
    cases ns with
    | nil => cases h
    | cons n ns =>
    obtain ⟨k', y⟩ := n
    simp only [List.map_cons, List.forall₂_cons] at h
    simp only [walkMembers, shape_isStructure h.1]
    refine .cons ?_ (walkMembers_shape ord loc (i + 1) ms _ h.2)
    split
    · exact walkdown_shape ord (i :: loc) x _ h.1
    · exact .nil
end

theorem walker_shape (ord : Ord) {xs ys : List V} (h : Shapes R xs ys) : ∀ k, Shapes R (walker ord k xs) (walker ord k ys) := by
  induction h with
  | nil => intro k; exact .nil
  | cons h _ ih =>
    intro k
    simp only [walker, shape_isStructure h]
    refine forall2_append ?_ (ih _)
    split
    · exact walkdown_shape ord _ _ _ h
    · exact .nil

/-! ### Selection -/

theorem lookup_shape (k : Bytes) : ∀ (ms ns : List (Bytes × V)), ms.map Prod.fst = ns.map Prod.fst →
    Shapes R (ms.map Prod.snd) (ns.map Prod.snd) → Option.Rel (SameShape R) (lookup ms k) (lookup ns k)
  | [], [], _, _ => .none
  | [], _ :: _, h, _ => by cases h
  | _ :: _, [], h, _ => by cases h
  | (k1, x) :: ms, (k2, y) :: ns, h, h' => by
    simp only [List.map_cons, List.cons.injEq, List.forall₂_cons] at h h'
    unfold lookup
    rw [h.1]
    split
    · exact .some h'.1
    · exact lookup_shape k ms ns h.2 h'.2

theorem goIndex_shape {xs ys : List V} (h : Shapes R xs ys) (i : Int64) : Option.Rel (SameShape R) (goIndex xs i) (goIndex ys i) := by
  unfold goIndex
  split
  · exact .none
  · rcases forall2_get h i.toInt.toNat with ⟨h1, h2⟩ | ⟨x, y, h1, h2, h3⟩
    · rw [h1, h2]; exact .none
    · rw [h1, h2]; exact .some h3

theorem sliceLoop_shape (up : Bool) {xs ys : List V} (h : Shapes R xs ys) (stop stride : Int64) : ∀ f i acc acc', Shapes R acc acc' →
    RelRes (Shapes R) (sliceLoop up xs stop stride f i acc) (sliceLoop up ys stop stride f i acc') := by
  intro f
  induction f with
  | zero => intro i acc acc' _; exact .stuck
  | succ f ih =>
    intro i acc acc' ha
    unfold sliceLoop
    by_cases hc : if up then i < stop else i > stop
    · rw [if_pos hc, if_pos hc]
      have hg := goIndex_shape h i
      revert hg
      cases goIndex xs i <;> cases goIndex ys i <;> intro hg <;> cases hg
      · exact .panic _
      · rename_i hv
        exact ih _ _ _ (forall2_append ha (.cons hv .nil))
    · rw [if_neg hc, if_neg hc]; exact .ok ha

theorem sliceVals_shape {xs ys : List V} (h : Shapes R xs ys) (sl : Slice) : RelRes (Shapes R) (sliceVals xs sl) (sliceVals ys sl) := by
  unfold sliceVals
  rw [h.length_eq]
  obtain ⟨start, stop, stride⟩ := sliceEval sl (Int64.ofNat ys.length)
  simp only
  by_cases h1 : stride > 0
  · rw [if_pos h1, if_pos h1]; exact sliceLoop_shape true h _ _ _ _ _ _ .nil
  rw [if_neg h1, if_neg h1]
  by_cases h2 : stride < 0
  · rw [if_pos h2, if_pos h2]; exact sliceLoop_shape false h _ _ _ _ _ _ .nil
  · rw [if_neg h2, if_neg h2]; exact .ok .nil

theorem valByKey_shape (env : Env) {a b : V} (h : SameShape R a b) (hs : isStructure a = true) (key : V) (neg : Bool) :
    Option.Rel (SameShape R) (valByKey env a key neg) (valByKey env b key neg) := by
  cases h with
  | scalar ha => rw [(scalar_cases ha).1] at hs; cases hs
  | arr h =>
    simp only [valByKey, h.length_eq]
    generalize (if (neg && decide (cvi env key < 0)) = true then cvi env key + Int64.ofNat _ else cvi env key) = n
    split
    · exact goIndex_shape h _
    · exact .none
  | obj hk h => exact lookup_shape _ _ _ hk h

theorem valsByKey_scalar (env : Env) {v : V} (h : Scalar v) (vals : GoSlice) (key : V) (neg : Bool) :
    valsByKey env vals v key neg = .ok (match key with | .slice _ => none | _ => vals) := by
  cases v <;> first | exact h.elim | (unfold valsByKey; cases key <;> rfl)

/-- Values of the same shape, or any two scalars. -/
def Viewed (R : V → V → Prop) (a b : V) : Prop := SameShape R a b ∨ (Scalar a ∧ Scalar b)

/-- What `valsByKey` does with a key that is not a slice. -/
def byKey (env : Env) (vals : GoSlice) (src key : V) (neg : Bool) : GoSlice :=
  match src with
  | .arr xs => if isInt key then ((valByKey env (.arr xs) key neg).map vals.append).getD vals else vals
  | .obj ms => ((valByKey env (.obj ms) key false).map vals.append).getD vals
  | _ => vals

theorem valsByKey_byKey (env : Env) (vals : GoSlice) (src key : V) (neg : Bool) (h : ∀ s, key ≠ .slice s) :
    valsByKey env vals src key neg = .ok (byKey env vals src key neg) := by
  unfold valsByKey byKey
  split
  · exact absurd rfl (h _)
  · cases src with
    | arr xs =>
      simp only
      split
      · cases valByKey env (.arr xs) key neg <;> rfl
      · rfl
    | obj ms =>
      simp only
      cases valByKey env (.obj ms) key false <;> rfl
    | _ => rfl

theorem rel_getD {vals vals' : GoSlice} (hv : RelGo R vals vals') {o o' : Option V} (h : Option.Rel (SameShape R) o o') :
    RelGo R ((o.map vals.append).getD vals) ((o'.map vals'.append).getD vals') := by
  cases h with
  | none => exact hv
  | some h => exact hv.append h

theorem children_viewed (ord : Ord) (loc : List Nat) {a b : V} (h : Viewed R a b) : Shapes R (children ord loc a) (children ord loc b) := by
  rcases h with h | ⟨ha, hb⟩
  · exact children_shape ord loc h
  · rw [(scalar_cases ha).2, (scalar_cases hb).2]; exact .nil

theorem valsByKey_shape (env : Env) {vals vals' : GoSlice} (hv : RelGo R vals vals') {a b : V} (h : Viewed R a b) (key : V) (neg : Bool) :
    RelRes (RelGo R) (valsByKey env vals a key neg) (valsByKey env vals' b key neg) := by
  by_cases hk : ∃ s, key = .slice s
  · obtain ⟨s, rfl⟩ := hk
    rcases h with h | ⟨ha, hb⟩
    case inr => rw [valsByKey_scalar env ha, valsByKey_scalar env hb]; exact .ok .none
    cases h with
    | scalar ha hb => rw [valsByKey_scalar env ha, valsByKey_scalar env hb]; exact .ok .none
    | arr h => exact (sliceVals_shape h s).bind fun _ _ hx => .ok (hv.appendAll hx)
    | obj => exact .ok .none
  have hk' : ∀ s, key ≠ .slice s := fun s e => hk ⟨s, e⟩
  rw [valsByKey_byKey env _ _ _ _ hk', valsByKey_byKey env _ _ _ _ hk']
  refine .ok ?_
  have hs : ∀ {v : V} {vals : GoSlice}, Scalar v → byKey env vals v key neg = vals := by
    intro v vals h; cases v <;> first | exact h.elim | rfl
  rcases h with h | ⟨ha, hb⟩
  case inr => rw [hs ha, hs hb]; exact hv
  cases h with
  | scalar ha hb => rw [hs ha, hs hb]; exact hv
  | arr h =>
    simp only [byKey]
    split
    · exact rel_getD hv (valByKey_shape env (.arr h) rfl key neg)
    · exact hv
  | obj hk h => exact rel_getD hv (valByKey_shape env (.obj hk h) rfl key false)

theorem unionByKeys_shape (env : Env) {a b : V} (h : Viewed R a b) (sels : List V) : ∀ {vals vals' : GoSlice}, RelGo R vals vals' →
    RelRes (RelGo R) (unionByKeys env vals a sels) (unionByKeys env vals' b sels) := by
  induction sels with
  | nil => intro vals vals' hv; exact .ok hv
  | cons sel r ih =>
    intro vals vals' hv
    unfold unionByKeys
    by_cases hn : isNothing sel = true
    · rw [if_pos hn, if_pos hn]; exact ih hv
    · rw [if_neg hn, if_neg hn]
      exact (valsByKey_shape env hv h sel true).bind fun _ _ hx => ih hx

theorem applySelection_shape {f : Nat → V → GoSlice → Res RErr GoSlice}
    (hf : ∀ k a b acc acc', SameShape R a b → RelGo R acc acc' → RelRes (RelGo R) (f k a acc) (f k b acc')) {xs ys : List V} (h : Shapes R xs ys) :
    ∀ k acc acc', RelGo R acc acc' → RelRes (RelGo R) (applySelection f k acc xs) (applySelection f k acc' ys) := by
  induction h with
  | nil => intro k acc acc' ha; exact .ok ha
  | cons h _ ih =>
    intro k acc acc' ha
    exact (hf k _ _ _ _ h ha).bind fun _ _ hx => ih _ _ _ hx

/-! ### Evaluation -/

mutual
theorem evalExpr_constant (env : Env) (oracle : Oracle) (root root' dot dot' : V) : ∀ (e : Expr) (t : Nat), Constant e = true →
    evalExpr env oracle root dot e t = evalExpr env oracle root' dot' e t
  | .int _, t, _ | .float _, t, _ | .str _, t, _ | .bool _, t, _ | .null, t, _ | .name _, t, _ | .re _, t, _ => by simp [evalExpr]
  | .current, _, h => by simp [Constant] at h
  | .root, _, h => by simp [Constant] at h
  | .inner op kids, t, h => by
    simp only [evalExpr]
    rw [evalKids_constant env oracle root root' dot dot' kids t (by simpa [Constant] using h)]
theorem evalKids_constant (env : Env) (oracle : Oracle) (root root' dot dot' : V) : ∀ (es : List Expr) (t : Nat), Constants es = true →
    evalKids env oracle root dot es t = evalKids env oracle root' dot' es t
  | [], t, _ => by simp [evalKids]
  | e :: r, t, h => by
    simp only [Constants, Bool.and_eq_true] at h
    simp only [evalKids]
    rw [evalExpr_constant env oracle root root' dot dot' e t h.1]
    simp only [fun t => evalKids_constant env oracle root root' dot dot' r t h.2]
end

theorem evalVals_constant (env : Env) (oracle : Oracle) (root root' dot dot' : V) : ∀ (as : List Val) (t : Nat),
    (∀ e, Val.expr e ∈ as → Constant e = true) → evalVals env oracle root dot as t = evalVals env oracle root' dot' as t
  | [], _, _ => rfl
  | a :: r, t, h => by
    simp only [evalVals]
    have ha : ∀ t, evalVal env oracle root dot a t = evalVal env oracle root' dot' a t := by
      intro t
      cases a with
      | expr e => exact evalExpr_constant env oracle root root' dot dot' e t (h e (by simp))
      | _ => rfl
    rw [ha]
    simp only [fun t => evalVals_constant env oracle root root' dot dot' r t fun e he => h e (by simp [he])]

/-- Result sets and counts. -/
def RelSt (R : V → V → Prop) (a b : GoSlice × Nat) : Prop := RelGo R a.1 b.1 ∧ a.2 = b.2

theorem visit_shape (env : Env) (ord : Ord) {op : Op} (h1 : op ≠ .filter) (h2 : op ≠ .nestFilter) {a b : V} (h : Viewed R a b) (vs : List V)
    {out out' : GoSlice} (ho : RelGo R out out') : RelRes (RelGo R) (visit env ord op a vs out) (visit env ord op b vs out') := by
  have hm : ∀ (sel : V) (n : Bool), RelRes (RelGo R) (if isNothing sel then .ok out else valsByKey env out a sel n)
      (if isNothing sel then .ok out' else valsByKey env out' b sel n) := by
    intro sel n
    by_cases hn : isNothing sel = true
    · rw [if_pos hn, if_pos hn]; exact .ok ho
    · rw [if_neg hn, if_neg hn]; exact valsByKey_shape env ho h sel n
  unfold visit
  cases op with
  | nestUnion => exact unionByKeys_shape env h vs ho
  | filter => exact absurd rfl h1
  | nestFilter => exact absurd rfl h2
  | nestMember =>
    match vs with
    | [] => exact .stuck
    | [v] => exact hm v false
    | _ :: _ :: _ => exact .stuck
  | nestSelect =>
    match vs with
    | [] => exact .stuck
    | [v] => exact hm v true
    | _ :: _ :: _ => exact .stuck
  | nestWild =>
    match vs with
    | [] => exact .ok (ho.appendAll (children_viewed ord [0] h))
    | _ :: _ => exact .stuck
  | _ => exact .stuck

theorem visits_shape (env : Env) (oracle : Oracle) (root root' : V) (s : Step) (h1 : s.op ≠ .filter) (h2 : s.op ≠ .nestFilter)
    (hc : ∀ e, Val.expr e ∈ s.args → Constant e = true) {xs ys : List V} (h : List.Forall₂ (Viewed R) xs ys) : ∀ {out out' : GoSlice} (t : Nat), RelGo R out out' →
    RelRes (RelSt R) (visits env oracle root s xs out t) (visits env oracle root' s ys out' t) := by
  induction h with
  | nil => intro out out' t ho; exact .ok ⟨ho, rfl⟩
  | cons h _ ih =>
    intro out out' t ho
    simp only [visits]
    rw [evalVals_constant env oracle root root' _ _ s.args t hc]
    refine (RelRes.refl _).bind ?_
    rintro ⟨vs, t1⟩ _ rfl
    exact (visit_shape env _ h1 h2 h vs ho).bind fun _ _ hx => ih _ hx

theorem loop_shape (env : Env) (oracle : Oracle) (root root' : V) (s : Step) (h1 : s.op ≠ .filter) (h2 : s.op ≠ .nestFilter)
    (hc : ∀ e, Val.expr e ∈ s.args → Constant e = true) {xs ys : List V} (h : Shapes R xs ys) {out out' : GoSlice} (t : Nat) (ho : RelGo R out out') :
    RelRes (RelSt R) (loop env oracle root s xs out t) (loop env oracle root' s ys out' t) := by
  have he : ∀ {xs ys : List V}, Shapes R xs ys → xs.isEmpty = ys.isEmpty := by
    intro xs ys h; cases h <;> rfl
  unfold loop
  rw [he ho.elems]
  split
  · exact .ok ⟨ho, rfl⟩
  · refine visits_shape env oracle root root' s h1 h2 hc ?_ t (.some .nil)
    unfold visited
    rw [he h]
    split
    · exact .cons (.inr ⟨trivial, trivial⟩) .nil
    · exact h.imp fun _ _ h => .inl h

theorem evalStep_shape (env : Env) (oracle : Oracle) (root root' : V) (s : Step) (h1 : s.op ≠ .filter) (h2 : s.op ≠ .nestFilter)
    (hc : ∀ e, Val.expr e ∈ s.args → Constant e = true) {out out' : GoSlice} (t : Nat) (ho : RelGo R out out') :
    RelRes (RelSt R) (evalStep env oracle root s out t) (evalStep env oracle root' s out' t) := by
  have hl := fun (xs ys : List V) (h : Shapes R xs ys) => loop_shape env oracle root root' s h1 h2 hc h (t + 1) ho
  have hv := evalVals_constant env oracle root root' .null .null s.args t hc
  have hsel : ∀ (b : Bool) (vs : List V) (t : Nat), RelRes (RelSt R) (match vs with
      | [sel] =>
        if isNothing sel then (.ok (some [], t) : Res RErr (GoSlice × Nat))
        else do
          let out ← applySelection (fun _ el acc => valsByKey env acc el sel b) 0 (some []) out.elems
          .ok (out, t)
      | _ => .stuck) (match vs with
      | [sel] =>
        if isNothing sel then .ok (some [], t)
        else do
          let out ← applySelection (fun _ el acc => valsByKey env acc el sel b) 0 (some []) out'.elems
          .ok (out, t)
      | _ => .stuck) := by
    intro b vs t
    match vs with
    | [] => exact .stuck
    | [sel] =>
      simp only
      by_cases hn : isNothing sel = true
      · rw [if_pos hn, if_pos hn]; exact .ok ⟨.some .nil, rfl⟩
      · rw [if_neg hn, if_neg hn]
        exact (applySelection_shape (fun k a b' acc acc' h ha => valsByKey_shape env ha (.inl h) sel b) ho.elems 0 _ _ (.some .nil)).bind
          fun _ _ hx => .ok ⟨hx, rfl⟩
    | _ :: _ :: _ => exact .stuck
  unfold evalStep
  split
  · exact (applySelection_shape (fun k a b acc acc' h ha => .ok (ha.appendAll (children_shape (oracle t) [k] h))) ho.elems 0 _ _ (.some .nil)).bind
      fun _ _ hx => .ok ⟨hx, rfl⟩
  · rw [hv]
    refine (RelRes.refl _).bind ?_
    rintro ⟨vs, t1⟩ _ rfl
    exact hsel _ vs t1
  · rw [hv]
    refine (RelRes.refl _).bind ?_
    rintro ⟨vs, t1⟩ _ rfl
    exact hsel _ vs t1
  · rw [hv]
    refine (RelRes.refl _).bind ?_
    rintro ⟨vs, t1⟩ _ rfl
    exact (applySelection_shape (fun k a b' acc acc' h ha => unionByKeys_shape env (.inl h) vs ha) ho.elems 0 _ _ (.some .nil)).bind
      fun _ _ hx => .ok ⟨hx, rfl⟩
  · exact absurd (by assumption) h1
  all_goals first | exact hl _ _ (walker_shape _ ho.elems 0) | exact .stuck

theorem evalSteps_shape (env : Env) (oracle : Oracle) (root root' : V) : ∀ (q : Path), Blind q → ∀ {out out' : GoSlice} (t : Nat),
    RelGo R out out' → RelRes (RelSt R) (evalSteps env oracle root q out t) (evalSteps env oracle root' q out' t)
  | [], _, _, _, t, ho => .ok ⟨ho, rfl⟩
  | s :: r, hb, _, _, t, ho => by
    obtain ⟨h1, h2, h3⟩ := hb s (by simp)
    refine (evalStep_shape env oracle root root' s h1 h2 h3 t ho).bind ?_
    rintro ⟨a, t1⟩ ⟨b, _⟩ ⟨hx, rfl⟩
    exact evalSteps_shape env oracle root root' r (fun s hs => hb s (by simp [hs])) t1 hx

theorem evalPath_shape (env : Env) (oracle : Oracle) {root root' : V} (h : SameShape R root root') (q : Path) (hb : Blind q) :
    RelRes (RelGo R) (evalPath env oracle root q) (evalPath env oracle root' q) := by
  unfold evalPath
  refine (evalSteps_shape env oracle root root' q hb 0 (.some (.cons h .nil))).bind ?_
  rintro ⟨a, t1⟩ ⟨b, _⟩ ⟨hx, rfl⟩
  exact .ok (.some hx.elems)

end
end JP
