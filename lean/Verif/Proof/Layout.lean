import Verif.Spec.Layout
import Verif.Proof.Literals
/-!
Operators, white space and subscripts in texts.
-/
namespace JP
open Spec

variable {env : Env} {pf : Bytes → Option F64} {valid : Bytes → Bool}

/-! ## Operators -/

theorem Spec.OpText.word {w : Bytes} {op : Op} (h : OpText w op) : ∃ lx, OpTok lx op (prio op) ∧ ExprWord pf lx w [] := by
  cases h with
  | or => exact ⟨_, .or, .or _⟩
  | and => exact ⟨_, .and, .and _⟩
  | eq => exact ⟨_, .eq, .eq _⟩
  | ne => exact ⟨_, .ne, .ne _⟩
  | lt => exact ⟨_, .lt, .alone _ (b! "=") _ (by simp) (.nil _)⟩
  | le => exact ⟨_, .le, .le _⟩
  | gt => exact ⟨_, .gt, .alone _ (b! "=") _ (by simp) (.nil _)⟩
  | ge => exact ⟨_, .ge, .ge _⟩
  | match_ => exact ⟨_, .match_, .match_ _⟩
  | tilde => exact ⟨_, .tilde, .punct _ _ (by decide)⟩
  | in_ => exact ⟨_, .in_, .name (c! 'i') (b! "n") [] (by simp [Letter]) (by simp [All, LetterDigit, Letter]) (.nil _)⟩
  | nin => exact ⟨_, .nin, .name (c! 'n') (b! "in") [] (by simp [Letter]) (by simp [All, LetterDigit, Letter]) (.nil _)⟩
  | add => exact ⟨_, .add, .punct _ _ (by decide)⟩
  | sub => exact ⟨_, .sub, .punct _ _ (by decide)⟩
  | mul => exact ⟨_, .mul, .punct _ _ (by decide)⟩
  | div => exact ⟨_, .div, .punct _ _ (by decide)⟩
  | mod => exact ⟨_, .mod, .punct _ _ (by decide)⟩

/-- Three operands that need no parentheses. -/
theorem three {ta tb tc : List Token} {ea eb ec : Expr} {l1 l2 : Lexeme} {op1 op2 : Op} {k1 k2 : Nat} (ha : GPrimary valid ta ea)
    (hb : GPrimary valid tb eb) (hc : GPrimary valid tc ec) (h1 : OpTok l1 op1 k1) (h2 : OpTok l2 op2 k2) :
    GExpr valid 0 (ta ++ .expr l1 :: (tb ++ .expr l2 :: tc))
      (if k2 ≤ k1 then .inner op2 [.inner op1 [ea, eb], ec] else .inner op1 [ea, .inner op2 [eb, ec]]) := by
  have ga := fun n => GExpr.unary n _ _ (.primary _ _ ha)
  have gb := fun n => GExpr.unary n _ _ (.primary _ _ hb)
  have gc := fun n => GExpr.unary n _ _ (.primary _ _ hc)
  by_cases h : k2 ≤ k1
  · rw [if_pos h]
    have := GExpr.binary 0 (ta ++ .expr l1 :: tb) _ l2 op2 k2 tc ec (Nat.zero_le _) h2 (.binary k2 ta ea l1 op1 k1 tb eb h h1 (ga _) (gb _)) (gc _)
    simpa using this
  · rw [if_neg h]
    exact .binary 0 ta ea l1 op1 k1 _ _ (Nat.zero_le _) h1 (ga _) (.binary (k1 + 1) tb eb l2 op2 k2 tc ec (by omega) h2 (gb _) (gc _))

theorem OpTok.prio_eq {lx : Lexeme} {op : Op} {k : Nat} (h : OpTok lx op k) : k = prio op := by cases h <;> rfl

/-- Joined with white space between. -/
theorem Spec.Written.sep {ts us : List Token} {a b g : Bytes} (h1 : Written pf ts a) (h2 : Written pf us b) (hg : White g) (hne : g ≠ [])
    (ho : Outside us) : Written pf (ts ++ us) (a ++ (g ++ b)) := by
  obtain ⟨c, g', rfl⟩ := List.exists_cons_of_ne_nil hne
  have := h2.gap hg ho
  rw [List.cons_append] at this ⊢
  exact h1.join this (neutral_space (hg c (by simp))) ho

theorem outside_expr (lx : Lexeme) (ts : List Token) : Outside (.expr lx :: ts) := by intro t ht; cases ht; rfl
theorem outside_path (lx : Lexeme) (ts : List Token) : Outside (.path lx :: ts) := by intro t ht; cases ht; rfl
theorem outside_nil : Outside [] := by intro t ht; cases ht
theorem outside_primary {ts : List Token} {e : Expr} (h : GPrimary valid ts e) : Outside ts := by
  obtain ⟨lx, us, rfl, _⟩ := GPrimary_first h
  exact outside_expr _ _
theorem outside_gexpr {n : Nat} {ts : List Token} {e : Expr} (h : GExpr valid n ts e) : Outside ts := by
  obtain ⟨lx, us, rfl, _⟩ := GExpr_first h
  exact outside_expr _ _

/-! ## White space -/

theorem Spec.Word.ne_nil {t : Token} {w next : Bytes} (h : Word pf t w next) : w ≠ [] := by
  cases h with
  | path lx w next h =>
    cases h with
    | str _ _ _ h => obtain ⟨q, t, _, rfl, _⟩ := h.head; simp
    | int _ _ h => exact h.1
    | _ => simp
  | expr lx w next h =>
    cases h with
    | str _ _ _ h => obtain ⟨q, t, _, rfl, _⟩ := h.head; simp
    | int _ _ h => exact h.1
    | real _ _ _ h => cases h; simp
    | _ => simp
  | regexp t v next h => simp

theorem Spec.Respaced.left {ts : List Token} {a b : Bytes} (h : Respaced pf ts a b) : Written pf ts a := by
  induction h with
  | nil g g' h _ => exact .nil _ h
  | cons t ts g g' w next next' h1 _ _ h2 _ ih => exact .cons _ _ _ _ _ h1 h2 ih

theorem Spec.Gap.white {t : Token} {g : Bytes} (h : Gap t g) : White g := by
  cases t with
  | path lx => exact h
  | expr lx => exact h
  | regexp s => have h : g = [] := h; subst h; exact White.nil

theorem Spec.Respaced.right {ts : List Token} {a b : Bytes} (h : Respaced pf ts a b) : Written pf ts b := by
  induction h with
  | nil g g' _ h => exact .nil _ h
  | cons t ts g g' w next next' _ h1 _ h2 h3 ih =>
    refine .cons _ _ _ _ _ h1 ?_ ih
    cases h3 with
    | nil _ _ hg1 hg2 =>
      cases next' with
      | nil =>
        cases h2 with
        | path lx w next h => exact .path _ _ _ h.atEnd
        | expr lx w next h => exact .expr _ _ _ h.atEnd
        | regexp t v next h => exact .regexp _ _ _ h
      | cons c g2 => exact h2.neutral (neutral_space (hg2 c (by simp))) _
    | cons t' ts g1 g2 w' n1 n2 hg1 hg2 hne hw' _ =>
      obtain ⟨c, w', rfl⟩ := List.exists_cons_of_ne_nil hw'.ne_nil
      cases g2 with
      | nil =>
        cases g1 with
        | nil => exact h2.congr (by simp)
        | cons d g1 => exact absurd rfl (hne (by simp))
      | cons d g2 => exact h2.neutral (neutral_space (Spec.Gap.white hg2 d (by simp))) _

/-! ## Subscripts -/

/-- What is read of a text before a byte that ends tokens. -/
theorem Spec.Written.lexes_before {ts : List Token} {a : Bytes} (h : Written env.parseFloat ts a) {c : UInt8} (hc : Neutral c) (y : Bytes) :
    ∀ b, ∃ b' g, White g ∧ Lexes env ⟨b, a ++ c :: y⟩ ts ⟨b', g ++ c :: y⟩ := by
  induction h with
  | nil g hg => intro b; exact ⟨b, g, hg, .nil⟩
  | cons t ts g w next hg hw _ ih =>
    intro b
    obtain ⟨b', g', h1, h2⟩ := ih ((g ++ w).reverse ++ b)
    refine ⟨b', g', h1, .cons (r1 := ⟨(g ++ w).reverse ++ b, next ++ c :: y⟩) ?_ h2⟩
    have hw' : Word env.parseFloat t w (next ++ c :: y) := by
      cases next with
      | nil => exact hw.neutral hc _
      | cons d next => exact hw.congr rfl
    have := hw'.reads hg b
    simpa using this

theorem pSteps_many {ts : List Token} {p : Path} (h : GSteps env.reValid ts p) : ∀ {r ra : Rd}, Lexes env r ts ra → ∀ (f : Nat) (acc : Path),
    pSteps env (f + p.length) acc ⟨r, none⟩ = pSteps env f (acc ++ p) ⟨ra, none⟩ := by
  induction h with
  | nil => intro r ra hlx f acc; obtain rfl := hlx.nil_inv; simp
  | cons ts x us p hx _ ih =>
    intro r ra hlx f acc
    obtain ⟨rb, hrb, hlx2⟩ := hlx.split
    rw [List.length_cons, ← Nat.add_assoc, pSteps_one hx hrb, ih hlx2, List.append_assoc]
    rfl

theorem Alone_first {ts : List Token} (h : GAlone valid ts) : ∃ lx us, ts = .path lx :: us := by
  cases h <;> exact ⟨_, _, rfl⟩
theorem Elem_first {ts : List Token} {v : Val} (h : GElem valid ts v) : ∃ lx us, ts = .path lx :: us := GSub_first (.one _ _ h)

/-- An element of a subscript. -/
theorem val_text {w : Bytes} (h : (∃ v, ElemText env w v) ∨ AloneText env w) :
    ∃ ts x, Written env.parseFloat ts w ∧ GVal env.reValid ts x ∧ Outside ts ∧
      (AloneText env w → x.op = .wild ∨ x.op = .exp ∨ x.op = .filter) := by
  by_cases ha : AloneText env w
  · obtain ⟨ts, h1, h2⟩ := ha
    obtain ⟨lx, us, rfl⟩ := Alone_first h2
    generalize hts : Token.path lx :: us = ts at *
    have ho : Outside ts := by subst hts; exact outside_path _ _
    cases h2 with
    | wild => exact ⟨_, _, h1, .wild, ho, fun _ => .inl rfl⟩
    | filter ts e h => exact ⟨_, _, h1, .filter _ _ h, ho, fun _ => .inr (.inr rfl)⟩
    | expr ts e h => exact ⟨_, _, h1, .expr _ _ h, ho, fun _ => .inr (.inl rfl)⟩
  · rcases h with ⟨v, ts, h1, h2⟩ | h
    · obtain ⟨lx, us, rfl⟩ := Elem_first h2
      obtain ⟨x, h3, _⟩ := elem_val h2
      exact ⟨_, x, h1, h3, outside_path _ _, fun h => absurd h ha⟩
    · exact absurd h ha

theorem neutral_comma : Neutral (c! ',') := neutral_of (by decide)

theorem Spec.Written.punctP {ts : List Token} {b : Bytes} {c : UInt8} (hc : c ∈ b! "()[]*$:,") (h : Written pf ts b) :
    Written pf (.p c :: ts) (c :: b) :=
  .cons _ _ [] [c] b White.nil (.path _ _ _ (.punct _ _ hc)) h

theorem Spec.Written.punctX {ts : List Token} {b : Bytes} {c : UInt8} (hc : c ∈ b! "()[]@$.,~*%+-/") (h : Written pf ts b) :
    Written pf (.x c :: ts) (c :: b) :=
  .cons _ _ [] [c] b White.nil (.expr _ _ _ (.punct _ _ hc)) h

theorem outside_append {ts us : List Token} (h : Outside ts) (hne : ts ≠ []) : Outside (ts ++ us) := by
  obtain ⟨t, ts, rfl⟩ := List.exists_cons_of_ne_nil hne
  intro t' ht
  exact h t' ht

/-- A list of elements. -/
theorem commas_vals : ∀ {ws : List Bytes}, ws ≠ [] → (∀ w ∈ ws, (∃ v, ElemText env w v) ∨ AloneText env w) →
    ∃ ts l, Written env.parseFloat ts (commas ws) ∧ GVals env.reValid ts l ∧ l.length = ws.length ∧
      ((∃ w ∈ ws, AloneText env w) → ∃ op, notInUnion l = some op)
  | [], h, _ => absurd rfl h
  | [w], _, h => by
    obtain ⟨ts, x, h1, h2, _, h3⟩ := val_text (h w (by simp))
    refine ⟨ts, [x], h1, .one _ _ h2, rfl, ?_⟩
    rintro ⟨w', hw', ha⟩
    simp at hw'
    subst hw'
    exact ⟨x.op, by simp only [notInUnion, if_pos (h3 ha)]⟩
  | w :: w' :: ws, _, h => by
    obtain ⟨ts, x, h1, h2, ho, h3⟩ := val_text (h w (by simp))
    obtain ⟨us, l, h4, h5, h6, h7⟩ := commas_vals (ws := w' :: ws) (by simp) (fun v hv => h v (by simp [hv]))
    refine ⟨ts ++ .p (c! ',') :: us, x :: l, ?_, .cons _ _ _ _ h2 h5, by simp [h6], ?_⟩
    · exact h1.join (h4.punctP (by decide)) neutral_comma (outside_path _ _)
    · rintro ⟨v, hv, ha⟩
      by_cases hb : x.op = .wild ∨ x.op = .exp ∨ x.op = .filter
      · exact ⟨x.op, by simp only [notInUnion, if_pos hb]⟩
      · simp only [notInUnion, if_neg hb]
        refine h7 ⟨v, ?_, ha⟩
        rcases List.mem_cons.mp hv with rfl | hv
        · exact absurd (h3 ha) hb
        · exact hv

theorem subscript_bad {l : List Step} (hl : 2 ≤ l.length) {op : Op} (h : notInUnion l = some op) (s : LState) :
    subscript l s = .err (.inUnion op) := by
  unfold subscript
  rw [if_pos (by omega), h]
  rfl

theorem bind_err {α β : Type} {m : P α} {k : α → P β} {s : LState} {e : PErr} (h : m s = .err e) : (m >>= k) s = .err e := by
  change P.bind m k s = _
  unfold P.bind
  rw [h]

/-- A list in brackets with an element that may only be alone. -/
theorem pBrackets_bad {ts : List Token} {l : List Step} (hg : GVals env.reValid ts l) (hl : 2 ≤ l.length) {op : Op}
    (h : notInUnion l = some op) {r ra rb : Rd} (hra : Lexes env r ts ra) (hrd : Reads env (.p (c! ']')) ra rb) :
    pBrackets env ⟨r, none⟩ = .err (.inUnion op) := by
  unfold pBrackets
  rw [bind_ok (m := fun s => pValList env (pathFuel s) s) (pValList_of (pValList_complete hg (.inl rfl) hra hrd))]
  exact bind_err (subscript_bad hl h _)

/-- More fuel changes nothing once there is an answer. -/
theorem pSteps_mono {f g : Nat} (hfg : f ≤ g) {acc : Path} {s : LState} {x : Path × LState} (h : pSteps env f acc s = .ok x) :
    pSteps env g acc s = .ok x := by
  rcases FLe_of_step (m := fun f => pSteps env f acc) (fun f => pSteps_step env f acc) hfg s with h1 | h1
  · rw [h] at h1; cases h1
  · exact h1.trans h

/-- A path that begins well and goes on to such a list. -/
theorem bad_list {text : Bytes} {us ts : List Token} {p : Path} {l : List Step} (hs : GSteps env.reValid us p)
    (hg : GVals env.reValid ts l) (hl : 2 ≤ l.length) {op : Op} (h : notInUnion l = some op) (nest : List Token)
    (hn : nest = [] ∨ nest = [.path (.plain .nest)]) {r : Rd}
    (hlx : Lexes env ⟨[], text⟩ (.p (c! '$') :: (us ++ (nest ++ .p (c! '[') :: (ts ++ [.p (c! ']')])))) r) (p' : Path) :
    parsePath env text ≠ .ok p' := by
  intro hp
  unfold parsePath at hp
  cases hq : pPath env ⟨⟨[], text⟩, none⟩ with
  | ok x =>
    obtain ⟨ra, hra, hlx2⟩ := hlx.cons_inv
    unfold pPath at hq
    rw [bind_ok (expectP_of (.inl rfl) hra)] at hq
    obtain ⟨rb, hrb, hlx3⟩ := hlx2.split
    have h1 : pSteps env ((pathFuel ⟨ra, none⟩ + 1) + p.length) [] ⟨ra, none⟩ = .ok x := pSteps_mono (by omega) hq
    rw [pSteps_many hs hrb] at h1
    have hbad : ∀ f acc, pSteps env (f + 1) acc ⟨rb, none⟩ = .err (.inUnion op) := by
      intro f acc
      rcases hn with rfl | rfl
      · obtain ⟨rc, hrc, hlx4⟩ := Lexes.cons_inv hlx3
        obtain ⟨rd, hrd, hlx5⟩ := hlx4.split
        unfold pSteps
        rw [bind_ok (lexPathP_at (.inl rfl) hrc.path_inv)]
        dsimp only [Lexeme.plain]
        rw [if_neg (by decide), if_pos (by decide)]
        exact bind_err (pBrackets_bad hg hl h hrd hlx5.one_inv)
      · obtain ⟨rc, hrc, hlx4⟩ := Lexes.cons_inv hlx3
        obtain ⟨re, hre, hlx4⟩ := Lexes.cons_inv hlx4
        obtain ⟨rd, hrd, hlx5⟩ := hlx4.split
        have hl3 := hre.path_inv
        unfold pSteps
        rw [bind_ok (lexPathP_at (.inl rfl) hrc.path_inv)]
        dsimp only [Lexeme.plain]
        rw [bind_ok (lookPath_at (.inl rfl) hl3), if_pos (by rfl), bind_ok (lexPathP_at (.inr ⟨_, _, hl3, rfl⟩) hl3)]
        exact bind_err (pBrackets_bad hg hl h hrd hlx5.one_inv)
    rw [hbad] at h1
    cases h1
  | err e => rw [hq] at hp; cases hp
  | panic e => rw [hq] at hp; cases hp
  | stuck => rw [hq] at hp; cases hp

/-- The elements of a union. -/
theorem commas_elems : ∀ {l : List (Bytes × Val)}, (∀ x ∈ l, ElemText env x.1 x.2) → l ≠ [] →
    ∃ ts, Written env.parseFloat ts (commas (l.map Prod.fst)) ∧ GElems env.reValid ts (l.map Prod.snd)
  | [], _, hne => absurd rfl hne
  | [x], h, _ => by
    obtain ⟨ts, h1, h2⟩ := h x (by simp)
    exact ⟨ts, h1, .one _ _ h2⟩
  | x :: y :: l, h, _ => by
    obtain ⟨ts, h1, h2⟩ := h x (by simp)
    obtain ⟨us, h3, h4⟩ := commas_elems (l := y :: l) (fun z hz => h z (by simp [hz])) (by simp)
    exact ⟨_, h1.join (h3.punctP (by decide)) neutral_comma (outside_path _ _), .cons _ _ _ _ h2 h4⟩

/-- A token at the end of a path. -/
def Last (t : Token) : Prop := (∃ lx, t = .path lx ∧ lx.tok ≠ .ch (c! '.')) ∨ t = .x (c! ')')

theorem Last.dot {t : Token} (ht : Last t) {w : Bytes} (h : Word pf t w []) (b : Bytes) : Word pf t w (c! '.' :: b) := by
  rcases ht with ⟨lx, rfl, hne⟩ | rfl
  · cases h with
    | path _ _ _ h =>
      refine .path _ _ _ ?_
      generalize hn : ([] : Bytes) = next at h
      cases h with
      | punct c _ h => exact .punct c _ h
      | dot _ h => exact absurd rfl hne
      | nest => exact .nest _
      | filter => exact .filter _
      | str w v _ h => exact .str w v _ h
      | int _ _ h1 h2 h3 => exact .int _ _ h1 (by simp [Spec.Stops, Digit]) h3
      | neg w ds _ h1 h2 h3 h4 => exact .neg w ds _ h1 h2 (by simp [Spec.Stops, Digit]) h4
      | name c w _ h1 h2 h3 => exact .name c w _ h1 h2 (by simp [Spec.Stops, LetterDigitDash, Letter, Digit])
  · cases h with
    | expr _ _ _ h =>
      refine .expr _ _ _ ?_
      generalize hl : Lexeme.plain (.ch (c! ')')) = lx at h
      cases h with
      | punct c _ h => exact .punct c _ h
      | alone c d _ h =>
        simp [Lexeme.plain] at hl
        subst hl
        simp at h
      | _ => simp [Lexeme.plain] at hl

theorem Spec.Written.join_dot {us : List Token} {a b : Bytes} {ts : List Token} (h1 : Written env.parseFloat ts a)
    (h2 : Written env.parseFloat us (c! '.' :: b)) (ho : Outside us) (hl : ∀ t, ts.getLast? = some t → Last t) :
    Written env.parseFloat (ts ++ us) (a ++ c! '.' :: b) := by
  induction h1 with
  | nil g hg => exact h2.gap hg ho
  | cons t ts g w next hg hw hr ih =>
    rw [List.append_assoc, List.append_assoc]
    refine .cons t _ g w _ hg ?_ (ih ?_)
    · cases next with
      | nil =>
        have := hr.white_inv White.nil
        subst this
        exact (hl t rfl).dot hw _
      | cons d next => exact hw.congr rfl
    · intro t' ht'
      refine hl t' ?_
      cases ts with
      | nil => cases ht'
      | cons x ts => rw [List.getLast?_cons_cons]; exact ht'

/-- How a path may end. -/
theorem Spec.GPath.lastTok {ts : List Token} {p : Path} (h : GPath valid ts p) : ∀ t, ts.getLast? = some t → Last t := by
  have paren : ∀ {ts e} (t0 : Token), GParen valid ts e → ∀ t, (t0 :: ts).getLast? = some t → Last t := by
    intro ts e t0 h t ht
    obtain ⟨us, rfl⟩ := gexpr_paren_last h
    rw [← List.cons_append, List.getLast?_concat] at ht
    cases ht
    exact .inr rfl
  have mem : ∀ {ts m} (t0 : Token), GMember valid ts m → ∀ t, (t0 :: ts).getLast? = some t → Last t := by
    intro ts m t0 h t ht
    cases h with
    | wild => cases ht; exact .inl ⟨_, rfl, by simp [Lexeme.plain]⟩
    | name s => cases ht; exact .inl ⟨_, rfl, by simp⟩
    | int n => cases ht; exact .inl ⟨_, rfl, by simp⟩
    | expr ts e h => rw [List.getLast?_cons_cons] at ht; exact paren _ h t ht
  have one : ∀ {ts s}, GStep valid ts s → ts ≠ [] ∧ ∀ t, ts.getLast? = some t → Last t := by
    intro ts s h
    cases h with
    | member ts m h => exact ⟨by simp, mem _ h⟩
    | nestMember ts m h => exact ⟨by simp, mem _ h⟩
    | sub ts k h =>
      refine ⟨by simp, fun t ht => ?_⟩
      rw [← List.cons_append, List.getLast?_concat] at ht
      cases ht; exact .inl ⟨_, rfl, by simp [Lexeme.plain]⟩
    | nestSub ts k h =>
      refine ⟨by simp, fun t ht => ?_⟩
      rw [← List.cons_append, ← List.cons_append, List.getLast?_concat] at ht
      cases ht; exact .inl ⟨_, rfl, by simp [Lexeme.plain]⟩
  obtain ⟨us, h, rfl⟩ := h
  have all : ∀ {ts p}, GSteps valid ts p → ∀ t0, Last t0 → ∀ t, (t0 :: ts).getLast? = some t → Last t := by
    intro ts p h
    induction h with
    | nil => intro t0 h0 t ht; cases ht; exact h0
    | cons ts s us p h1 _ ih =>
      intro t0 h0 t ht
      obtain ⟨hne, hl⟩ := one h1
      obtain ⟨vs, x, rfl⟩ := List.eq_nil_or_concat ts |>.resolve_left hne
      have hx : Last x := hl x (by rw [List.concat_eq_append, List.getLast?_concat])
      refine ih x hx t ?_
      rw [← ht]
      simp [List.getLast?_cons]
  exact all h _ (.inl ⟨_, rfl, by simp [Lexeme.plain]⟩)

/-- The list in a text. -/
theorem bad_list_text {text : Bytes} {us ts : List Token} {p : Path} {l : List Step} {b next : Bytes} (hs : GSteps env.reValid us p)
    (hg : GVals env.reValid ts l) (hl : 2 ≤ l.length) {op : Op} (h : notInUnion l = some op) (nest : List Token)
    (hn : nest = [] ∨ nest = [.path (.plain .nest)])
    (hw : Written env.parseFloat (.p (c! '$') :: (us ++ (nest ++ .p (c! '[') :: ts))) b) (ht : text = b ++ c! ']' :: next) (p' : Path) :
    parsePath env text ≠ .ok p' := by
  obtain ⟨b', g, hg', hlx⟩ := hw.lexes_before (neutral_of (by decide : c! ']' ∈ _)) next []
  have hr : Word env.parseFloat (.p (c! ']')) (b! "]") next := .path _ _ _ (.punct _ _ (by decide))
  have hr := hr.reads (g := g) hg' b'
  subst ht
  refine bad_list (r := ⟨(g ++ b! "]").reverse ++ b', next⟩) hs hg hl h nest hn ?_ p'
  have := hlx.append (.cons hr .nil)
  simpa using this

theorem GSteps_append {ts us : List Token} {p q : Path} (h : GSteps valid ts p) (h' : GSteps valid us q) : GSteps valid (ts ++ us) (p ++ q) := by
  induction h with
  | nil => exact h'
  | cons ts s vs p h1 _ ih => rw [List.append_assoc]; exact .cons _ _ _ _ h1 ih

end JP
