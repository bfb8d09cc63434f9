import Verif.Model.Tree
import Verif.Proof.ProgText
import Verif.Proof.Notation
import Verif.Spec.Tree
import Verif.Spec.Print
/-!
The text of a step determines it, but for names and strings; nodes of trees.
-/
namespace JP
open Spec

/-- Neither an expression nor a slice with one. -/
def Val.Plain : Val → Prop
  | .expr _ => False
  | .slice s => s.Literal
  | _ => True

theorem pred_split {p : UInt8 → Prop} : ∀ {a b x y : Bytes}, (∀ c ∈ a, p c) → (∀ c ∈ b, p c) →
    (∀ c t, x = c :: t → ¬ p c) → (∀ c t, y = c :: t → ¬ p c) → a ++ x = b ++ y → a = b ∧ x = y
  | [], [], _, _, _, _, _, _, h => ⟨rfl, h⟩
  | [], b :: bs, _, _, _, hb, hx, _, h => absurd (hb b (by simp)) (hx b _ h)
  | a :: as, [], _, _, ha, _, _, hy, h => absurd (ha a (by simp)) (hy a _ h.symm)
  | a :: as, b :: bs, _, _, ha, hb, hx, hy, h => by
    simp only [List.cons_append, List.cons.injEq] at h
    obtain ⟨h1, h2⟩ := pred_split (p := p) (fun c m => ha c (by simp [m])) (fun c m => hb c (by simp [m])) hx hy h.2
    exact ⟨by rw [h.1, h1], h2⟩

/-- The characters of numbers. -/
def NumChar (c : UInt8) : Prop := (48 ≤ c.toNat ∧ c.toNat ≤ 57) ∨ c.toNat = 45

theorem goBound_inj {a b : Option Bound} (ha : Bound.Literal a) (hb : Bound.Literal b) {c : UInt8} (hc : ¬ NumChar c) {x y : Bytes}
    (h : Bound.goText a ++ c :: x = Bound.goText b ++ c :: y) : a = b ∧ x = y := by
  have hd : ∀ {z : Bytes} (c' : UInt8) (t : Bytes), c :: z = c' :: t → ¬ NumChar c' := by
    intro z c' t h; cases h; exact hc
  have nil_num : ∀ (n : Int64) (u v : Bytes), b! "paths.Val(nil)" ++ u = intToBytes n.toInt ++ v → False := by
    intro n u v h
    have h1 := intToBytes_chars (n := n.toInt)
    cases hn : intToBytes n.toInt with
    | nil => exact h1.1 hn
    | cons d t =>
      rw [hn] at h
      have := h1.2 d (by simp [hn])
      rw [← (List.cons.inj h).1] at this
      revert this; decide
  match a, b, ha, hb with
  | none, none, _, _ => exact ⟨rfl, (List.cons.inj (List.append_cancel_left h)).2⟩
  | none, some (.int n), _, _ => exact (nil_num n _ _ h).elim
  | some (.int n), none, _, _ => exact (nil_num n _ _ h.symm).elim
  | some (.int n), some (.int m), _, _ =>
    obtain ⟨h1, h2⟩ := pred_split (p := NumChar) intToBytes_chars.2 intToBytes_chars.2 hd hd h
    exact ⟨by rw [Int64.toInt_inj.1 (intToBytes_inj h1)], (List.cons.inj h2).2⟩
  | some (.expr e), _, ha, _ => exact absurd rfl (ha e)
  | _, some (.expr e), _, hb => exact absurd rfl (hb e)

/-- Arguments with the same text. -/
theorem val_inj (env : Env) {a b : Val} (ha : a.Plain) (hb : b.Plain) {c c' : UInt8} (hc : ¬ NumChar c) (hc' : ¬ NumChar c') {x y : Bytes}
    (h : a.goText env ++ c :: x = b.goText env ++ c' :: y) : SameKey a b ∧ c = c' ∧ x = y := by
  have hd : ∀ {z : Bytes} {c : UInt8}, ¬ NumChar c → ∀ (c' : UInt8) (t : Bytes), c :: z = c' :: t → ¬ NumChar c' := by
    intro z c hc c' t h; cases h; exact hc
  have quoted : ∀ {s s' : Bytes}, goQuote env s ++ c :: x = goQuote env s' ++ c' :: y → s = s' ∧ c = c' ∧ x = y := by
    intro s s' h
    obtain ⟨-, h1, h2⟩ := (goQuote_spec env s).prefix (goQuote_spec env s') h
    exact ⟨h1, List.cons.inj h2⟩
  have first : ∀ (n : Int64) (d : UInt8) (u v : Bytes), ¬ NumChar d → d :: u = intToBytes n.toInt ++ v → False := by
    intro n d u v hd h
    have h1 := intToBytes_chars (n := n.toInt)
    cases hn : intToBytes n.toInt with
    | nil => exact h1.1 hn
    | cons d' t =>
      rw [hn] at h
      have := h1.2 d' (by simp [hn])
      rw [← (List.cons.inj h).1] at this
      exact hd this
  match a, b, ha, hb with
  | .name s, .name s', _, _ => obtain ⟨rfl, h1⟩ := quoted h; exact ⟨.refl _, h1⟩
  | .name s, .str s', _, _ => obtain ⟨rfl, h1⟩ := quoted h; exact ⟨.symm (.bare _), h1⟩
  | .str s, .name s', _, _ => obtain ⟨rfl, h1⟩ := quoted h; exact ⟨.bare _, h1⟩
  | .str s, .str s', _, _ => obtain ⟨rfl, h1⟩ := quoted h; exact ⟨.refl _, h1⟩
  | .int n, .int m, _, _ =>
    obtain ⟨h1, h2⟩ := pred_split (p := NumChar) intToBytes_chars.2 intToBytes_chars.2 (hd hc) (hd hc') h
    rw [Int64.toInt_inj.1 (intToBytes_inj h1)]
    exact ⟨.refl _, List.cons.inj h2⟩
  | .name s, .int n, _, _ => exact (first n _ _ _ (by unfold NumChar; decide) h).elim
  | .str s, .int n, _, _ => exact (first n _ _ _ (by unfold NumChar; decide) h).elim
  | .int n, .name s, _, _ => exact (first n _ _ _ (by unfold NumChar; decide) h.symm).elim
  | .int n, .str s, _, _ => exact (first n _ _ _ (by unfold NumChar; decide) h.symm).elim
  | .slice s, .int n, _, _ => exact (first n (c! '&') _ _ (by unfold NumChar; decide) h).elim
  | .int n, .slice s, _, _ => exact (first n (c! '&') _ _ (by unfold NumChar; decide) h.symm).elim
  | .slice s, .name s', _, _ => exact absurd (List.cons.inj h).1 (by decide)
  | .slice s, .str s', _, _ => exact absurd (List.cons.inj h).1 (by decide)
  | .name s', .slice s, _, _ => exact absurd (List.cons.inj h).1 (by decide)
  | .str s', .slice s, _, _ => exact absurd (List.cons.inj h).1 (by decide)
  | .slice s, .slice s', ha, hb =>
    obtain ⟨a1, a2, a3⟩ := s
    obtain ⟨b1, b2, b3⟩ := s'
    simp only [Val.goText, List.append_assoc] at h
    obtain ⟨e1, h1⟩ := goBound_inj (c := c! ',') ha.1 hb.1 (by unfold NumChar; decide) (List.append_cancel_left h)
    obtain ⟨e2, h2⟩ := goBound_inj (c := c! ',') ha.2.1 hb.2.1 (by unfold NumChar; decide) (List.append_cancel_left (as := b! " End:") h1)
    obtain ⟨e3, h3⟩ := goBound_inj (c := c! '}') ha.2.2 hb.2.2 (by unfold NumChar; decide) (List.append_cancel_left (as := b! " Stride:") h2)
    dsimp only at e1 e2 e3
    subst e1 e2 e3
    exact ⟨.refl _, List.cons.inj h3⟩

theorem commas_cons (t : Bytes) (ts : List Bytes) : commas (t :: ts) = t ++ (match ts with | [] => [] | _ => c! ',' :: c! ' ' :: commas ts) := by
  cases ts with
  | nil => simp [commas]
  | cons => simp [commas]

theorem vals_inj (env : Env) : ∀ {as bs : List Val}, as ≠ [] → bs ≠ [] → (∀ v ∈ as, v.Plain) → (∀ v ∈ bs, v.Plain) →
    commas (as.map (Val.goText env)) ++ [c! ')'] = commas (bs.map (Val.goText env)) ++ [c! ')'] → All2 SameKey as bs
  | [], _, h, _, _, _, _ => absurd rfl h
  | _, [], _, h, _, _, _ => absurd rfl h
  | a :: as, b :: bs, _, _, ha, hb, h => by
    simp only [List.map_cons, commas_cons, List.append_assoc] at h
    have e1 : ¬ NumChar (c! ',') := by unfold NumChar; decide
    have e2 : ¬ NumChar (c! ')') := by unfold NumChar; decide
    cases as with
    | nil =>
      cases bs with
      | nil =>
        obtain ⟨h1, -⟩ := val_inj env (ha a (by simp)) (hb b (by simp)) e2 e2 h
        exact .cons h1 .nil
      | cons b' bs =>
        obtain ⟨-, h1, -⟩ := val_inj env (ha a (by simp)) (hb b (by simp)) e2 e1 h
        exact absurd h1 (by decide)
    | cons a' as =>
      cases bs with
      | nil =>
        obtain ⟨-, h1, -⟩ := val_inj env (ha a (by simp)) (hb b (by simp)) e1 e2 h
        exact absurd h1 (by decide)
      | cons b' bs =>
        obtain ⟨h1, -, h2⟩ := val_inj env (ha a (by simp)) (hb b (by simp)) e1 e1 h
        exact .cons h1 (vals_inj env (by simp) (by simp) (fun v m => ha v (by simp [m])) (fun v m => hb v (by simp [m])) (List.cons.inj h2).2)

theorem name_paren (op : Op) : ∀ c ∈ op.name, c ≠ c! '(' := by cases op <;> decide
theorem name_inj {a b : Op} (h : a.name = b.name) : a = b := by
  have : ∀ a ∈ Op.all, ∀ b ∈ Op.all, a.name = b.name → a = b := by decide +kernel
  exact this a (mem_all a) b (mem_all b) h

theorem step_inj (env : Env) {s s' : Step} (h : ∀ v ∈ s.args, v.Plain) (h' : ∀ v ∈ s'.args, v.Plain) (he : s.text env = s'.text env) :
    s.op = s'.op ∧ All2 SameKey s.args s'.args := by
  obtain ⟨op, as⟩ := s
  obtain ⟨op', bs⟩ := s'
  unfold Step.text at he
  dsimp only at he h h' ⊢
  have hd : ∀ {x : Bytes} {p : Bool}, ∀ c t, (if p then [] else c! '(' :: x) = c :: t → ¬ c ≠ c! '(' := by
    intro x p c t hx
    cases p with
    | true => cases hx
    | false => simp only [Bool.false_eq_true, if_false, List.cons.injEq] at hx; simp [hx.1]
  obtain ⟨h1, h2⟩ := pred_split (p := (· ≠ c! '(')) (name_paren op) (name_paren op') hd hd he
  refine ⟨name_inj h1, ?_⟩
  cases as with
  | nil => cases bs with
    | nil => exact .nil
    | cons => cases h2
  | cons => cases bs with
    | nil => cases h2
    | cons => exact vals_inj env (by simp) (by simp) h h' (List.cons.inj h2).2

theorem stepText_eval {env : Env} {s s' : Step} (hw : s.WF) (hw' : s'.WF) (h : ∀ v ∈ s.args, v.Plain) (h' : ∀ v ∈ s'.args, v.Plain)
    (he : s.text env = s'.text env) (oracle : Oracle) (root : V) (out : GoSlice) (t : Nat) :
    evalStep env oracle root s out t = evalStep env oracle root s' out t := by
  obtain ⟨h1, h2⟩ := step_inj env h h' he
  obtain ⟨op, as⟩ := s
  obtain ⟨op', bs⟩ := s'
  dsimp only at h1 h2 h h'
  subst h1
  have key : Keyed op → evalStep env oracle root ⟨op, as⟩ out t = evalStep env oracle root ⟨op, bs⟩ out t :=
    fun hk => evalStep_congr hk (fun dot t => sameKeys_rel h2 oracle root dot t) out t
  have hargs := hw.2
  have hargs' := hw'.2
  cases op <;> first
    | (apply key; unfold Keyed; decide)
    | (simp only at hargs hargs'; rw [hargs, hargs'])
    | (obtain ⟨e, he⟩ := hargs; simp only at he; subst he; exact (h (.expr e) (by simp)).elim)
    | exact hargs.elim

theorem stepTexts_eval {env : Env} (oracle : Oracle) (root : V) : ∀ {q q' : Path}, q.WF → q'.WF → (∀ s ∈ q, ∀ v ∈ s.args, v.Plain) →
    (∀ s ∈ q', ∀ v ∈ s.args, v.Plain) → q.map (Step.text env) = q'.map (Step.text env) → ∀ out t,
    evalSteps env oracle root q out t = evalSteps env oracle root q' out t
  | [], [], _, _, _, _, _, _, _ => rfl
  | [], _ :: _, _, _, _, _, h, _, _ => by cases h
  | _ :: _, [], _, _, _, _, h, _, _ => by cases h
  | s :: q, s' :: q', hw, hw', hp, hp', h, out, t => by
    simp only [List.map_cons, List.cons.injEq] at h
    unfold evalSteps
    rw [stepText_eval (hw s (by simp)) (hw' s' (by simp)) (hp s (by simp)) (hp' s' (by simp)) h.1]
    congr 1
    funext ⟨o, t⟩
    exact stepTexts_eval oracle root (fun s m => hw s (by simp [m])) (fun s m => hw' s (by simp [m])) (fun s m => hp s (by simp [m]))
      (fun s m => hp' s (by simp [m])) h.2 o t

theorem plain_of_inPath {q : Path} (h : ∀ e, ¬ InPath q e) : ∀ s ∈ q, ∀ v ∈ s.args, v.Plain := by
  intro s hs v hv
  match v, hv with
  | .expr e, hv => exact h e (.arg hs hv)
  | .slice sl, hv => exact ⟨fun e he => h e (.start hs hv he), fun e he => h e (.stop hs hv he), fun e he => h e (.stride hs hv he)⟩
  | .name _, _ => exact trivial
  | .int _, _ => exact trivial
  | .str _, _ => exact trivial

theorem evalPath_texts {env : Env} {oracle : Oracle} {root : V} {q q' : Path} (hw : q.WF) (hw' : q'.WF) (hp : ∀ s ∈ q, ∀ v ∈ s.args, v.Plain)
    (hp' : ∀ s ∈ q', ∀ v ∈ s.args, v.Plain) (h : q.map (Step.text env) = q'.map (Step.text env)) :
    evalPath env oracle root q = evalPath env oracle root q' := by
  unfold evalPath
  rw [stepTexts_eval oracle root hw hw' hp hp' h]

/-! ## Nodes -/

theorem trees_mem {env : Env} {lim : Bool} {es : List Expr} (h : Trees env lim es) : ∀ e ∈ es, Tree env lim e := by
  induction es with
  | nil => intro _ h; cases h
  | cons e es ih =>
    cases h with
    | cons _ _ h1 h2 => intro x hx; rcases List.mem_cons.1 hx with rfl | hx; exacts [h1, ih h2 x hx]

/-- A tree, or the name after a dot. -/
def Node (env : Env) (e : Expr) : Prop := Tree env true e ∨ ∃ s, e = .name s

theorem part_tree {env : Env} {e x : Expr} (h : Part e x) : Node env e → Node env x := by
  induction h with
  | self => exact id
  | kid op kids k e hk _ ih =>
    rintro (hw | ⟨_, hw⟩)
    swap
    · cases hw
    apply ih
    have two : ∀ {a b : Expr}, k ∈ [a, b] → Node env a → Node env b → Node env k := by
      intro a b hm h1 h2
      simp only [List.mem_cons, List.not_mem_nil, or_false] at hm
      rcases hm with rfl | rfl
      exacts [h1, h2]
    cases hw with
    | unary _ _ _ h => cases List.mem_singleton.1 hk; exact .inl h
    | binary _ _ _ _ h h' => exact two hk (.inl h) (.inl h')
    | index _ _ h h' => exact two hk (.inl h) (.inl h')
    | dot _ _ h => exact two hk (.inl h) (.inr ⟨_, rfl⟩)
    | array _ h => exact .inl (trees_mem h k hk)
    | call _ _ h h' =>
      rcases List.mem_cons.1 hk with rfl | hk
      exacts [.inl h, .inl (trees_mem h' k hk)]

theorem leaf_tree {env : Env} {e : Expr} (h : Node env e) : e.isLeaf = true ↔ ∀ op kids, e ≠ .inner op kids := by
  rcases h with h | ⟨s, rfl⟩
  swap
  · simp [Expr.isLeaf, Expr.opcode, Op.isLeaf]
  cases h with
  | unary op e ho => rcases ho with rfl | rfl <;> simp [Expr.isLeaf, Expr.opcode, Op.isLeaf]
  | binary op a b ho => obtain ⟨w, ho⟩ := ho; cases ho <;> simp [Expr.isLeaf, Expr.opcode, Op.isLeaf]
  | _ => simp [Expr.isLeaf, Expr.opcode, Op.isLeaf]

theorem elem_tree {env : Env} {v : Val} (h : TreeElem env true v) : (∀ e, v ≠ .expr e) ∧
    ∀ s, v = .slice s → ∀ e, s.start = some (.expr e) ∨ s.stop = some (.expr e) ∨ s.stride = some (.expr e) → Tree env true e := by
  refine ⟨?_, ?_⟩
  · rintro e rfl
    cases h
  rintro s rfl e he
  cases h with
  | slice a b c ha hb hc =>
    have key : ∀ {x : Option Bound}, (∀ y ∈ x, TreeBound env true y) → x = some (.expr e) → Tree env true e := by
      rintro x h rfl
      cases h _ rfl with
      | expr _ h => exact h
    rcases he with he | he | he
    exacts [key ha he, key hb he, key hc he]

theorem step_tree {env : Env} {x : Step} (h : TreeStep env true x) : ∀ v ∈ x.args, (∀ e, v = .expr e → Tree env true e) ∧
    ∀ s, v = .slice s → ∀ e, s.start = some (.expr e) ∨ s.stop = some (.expr e) ∨ s.stride = some (.expr e) → Tree env true e := by
  have elem : ∀ {v : Val}, TreeElem env true v → (∀ e, v = .expr e → Tree env true e) ∧
      ∀ s, v = .slice s → ∀ e, s.start = some (.expr e) ∨ s.stop = some (.expr e) ∨ s.stride = some (.expr e) → Tree env true e :=
    fun h => ⟨fun e he => absurd he ((elem_tree h).1 e), (elem_tree h).2⟩
  have expr : ∀ {e' : Expr}, Tree env true e' → (∀ e, Val.expr e' = .expr e → Tree env true e) ∧
      ∀ s, Val.expr e' = .slice s → ∀ e, s.start = some (.expr e) ∨ s.stop = some (.expr e) ∨ s.stride = some (.expr e) → Tree env true e :=
    fun h => ⟨fun e he => by cases he; exact h, nofun⟩
  have member : ∀ {v : Val}, TreeMember env true v → (∀ e, v = .expr e → Tree env true e) ∧
      ∀ s, v = .slice s → ∀ e, s.start = some (.expr e) ∨ s.stop = some (.expr e) ∨ s.stride = some (.expr e) → Tree env true e := by
    intro v h
    cases h with
    | expr _ h => exact expr h
    | _ => exact ⟨nofun, nofun⟩
  have key : ∀ {v : Val}, TreeKey env true v → (∀ e, v = .expr e → Tree env true e) ∧
      ∀ s, v = .slice s → ∀ e, s.start = some (.expr e) ∨ s.stop = some (.expr e) ∨ s.stride = some (.expr e) → Tree env true e := by
    intro v h
    cases h with
    | expr _ h => exact expr h
    | elem _ h => exact elem h
  intro v hv
  cases h with
  | wild | nestWild => cases hv
  | filter _ h | nestFilter _ h => cases List.mem_singleton.1 hv; exact expr h
  | member _ h | nestMember _ h => cases List.mem_singleton.1 hv; exact member h
  | select _ h | nestSelect _ h => cases List.mem_singleton.1 hv; exact key h
  | union _ _ h | nestUnion _ _ h => exact elem (h v hv)

theorem inPath_tree {env : Env} {q : Path} {e : Expr} (h : TreePath env true q) (he : InPath q e) : Tree env true e := by
  cases he with
  | arg hx hv => exact (step_tree (h _ hx) _ hv).1 e rfl
  | start hx hv hs => exact (step_tree (h _ hx) _ hv).2 _ rfl e (.inl hs)
  | stop hx hv hs => exact (step_tree (h _ hx) _ hv).2 _ rfl e (.inr (.inl hs))
  | stride hx hv hs => exact (step_tree (h _ hx) _ hv).2 _ rfl e (.inr (.inr hs))

end JP
