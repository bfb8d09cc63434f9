import Verif.Proof.PathSound
import Verif.Proof.Fuel
/-! Every path of the grammar is accepted, with the steps of its derivation. -/
namespace JP
open Spec

variable {env : Env}

theorem Reads.path_inv {lx : Lexeme} {r r' : Rd} (h : Reads env (.path lx) r r') : lexPath env r = some (lx, r') := by
  cases h with | path h => exact h

theorem expr_complete {ts : List Token} {e : Expr} (h : GExpr env.reValid 0 ts e) {r r1 r2 : Rd} {lx : Lexeme}
    (hlx : Lexes env r ts r1) (hl : lexExpr env r1 = some (lx, r2)) (hst : Stops 0 lx) :
    parseScriptExpr env ⟨r, none⟩ = .ok (e, ⟨r2, some (opLexeme lx)⟩) := by
  obtain ⟨s1, hs1, hc⟩ := pExpr_complete h 0 (Nat.le_refl _) (.inl rfl : AtX env ⟨r, none⟩ r) hlx hl hst.1
    (fun op k ho => Nat.lt_succ_of_lt (hst.2 op k ho))
  exact parseScriptExpr_of (hc _ (exprLoop_done (n := 0) hs1 hl hst.2))

theorem pParenExpr_complete {ts : List Token} {e : Expr} (h : GParen env.reValid ts e) {r r1 : Rd}
    (hlx : Lexes env r ts r1) : pParenExpr env ⟨r, none⟩ = .ok (e, ⟨r1, none⟩) := by
  obtain ⟨us, hg, rfl⟩ := h
  obtain ⟨ra, hra, hlx2⟩ := hlx.split
  have hrd := hlx2.one_inv
  have hl := hrd.expr_inv
  have hO : AtO env ⟨r1, some (opLexeme (.plain (.ch (c! ')'))))⟩ ra := ⟨_, _, hl, rfl⟩
  unfold pParenExpr
  rw [bind_ok (expr_complete hg hra hl (stop_paren 0))]
  have := expectX_of (c := c! ')') (.inr hO) hrd
  rw [← expectO_path hO] at this
  rw [bind_ok this]
  rfl

theorem pMember_complete {ts : List Token} {m : Option Val} (h : GMember env.reValid ts m) {s : LState} {r r1 : Rd}
    (hs : AtP env s r) (hlx : Lexes env r ts r1) : pMember env s = .ok (m, ⟨r1, none⟩) := by
  unfold pMember
  cases h with
  | wild => rw [bind_ok (lexPathP_at hs hlx.one_inv.path_inv)]; rfl
  | name n => rw [bind_ok (lexPathP_at hs hlx.one_inv.path_inv)]; rfl
  | int n => rw [bind_ok (lexPathP_at hs hlx.one_inv.path_inv)]; rfl
  | expr ts e hg =>
    obtain ⟨ra, hra, hlx2⟩ := hlx.cons_inv
    rw [bind_ok (lexPathP_at hs hra.path_inv)]
    show (pParenExpr env >>= fun e => pure (some (.expr e)) : P (Option Val)) ⟨ra, none⟩ = _
    rw [bind_ok (pParenExpr_complete hg hlx2)]
    rfl

theorem pSliceVal_complete {ts : List Token} {b : Bound} (h : GBound env.reValid ts b) {s : LState} {r r1 : Rd}
    (hs : AtP env s r) (hlx : Lexes env r ts r1) : pSliceVal env s = .ok (b, ⟨r1, none⟩) := by
  unfold pSliceVal
  cases h with
  | int n => rw [bind_ok (lexPathP_at hs hlx.one_inv.path_inv)]; rfl
  | expr ts e hg =>
    obtain ⟨ra, hra, hlx2⟩ := hlx.cons_inv
    rw [bind_ok (lexPathP_at hs hra.path_inv)]
    show (pParenExpr env >>= fun e => pure (.expr e) : P Bound) ⟨ra, none⟩ = _
    rw [bind_ok (pParenExpr_complete hg hlx2)]
    rfl

/-- The first token of a bound. -/
theorem GBound_first {v : Bytes → Bool} {ts : List Token} {b : Bound} (h : GBound v ts b) : ∃ lx us, ts = .path lx :: us ∧
    lx.tok ≠ .ch (c! ',') ∧ lx.tok ≠ .ch (c! ']') ∧ lx.tok ≠ .ch (c! ':') := by
  cases h with
  | int n => exact ⟨_, _, rfl, by simp, by simp, by simp⟩
  | expr ts e => exact ⟨_, _, rfl, by simp [Lexeme.plain], by simp [Lexeme.plain], by simp [Lexeme.plain]⟩

/-- A token that follows an element of a subscript. -/
def NextEnds (env : Env) (r : Rd) : Prop := ∃ c r', lexPath env r = some (.plain (.ch c), r') ∧ (c = c! ',' ∨ c = c! ']')

theorem pSlice_complete {us : List Token} {b c : Option Bound} (h : GTail env.reValid us b c) (start : Option Bound)
    {r r1 : Rd} (hlx : Lexes env r us r1) (he : NextEnds env r1) :
    ∃ s1, pSlice env start ⟨r, none⟩ = .ok (⟨.select, [.slice ⟨start, b, c⟩]⟩, s1) ∧ AtP env s1 r1 := by
  obtain ⟨ec, re, hle, hec⟩ := he
  -- the rest of a slice after its third bound
  have hlast : ∀ (vs : List Token) (r2 : Rd) (c : Option Bound), GBound? env.reValid vs c → Lexes env r2 vs r1 →
      ∃ s1, (do
        let tok ← lookPath env
        if tok = .ch (c! ',') ∨ tok = .ch (c! ']') then pure ⟨.select, [.slice ⟨start, b, none⟩]⟩
        else do
          let e ← pSliceVal env
          pure ⟨.select, [.slice ⟨start, b, some e⟩]⟩ : P Step) ⟨r2, none⟩ =
            .ok (⟨.select, [.slice ⟨start, b, c⟩]⟩, s1) ∧ AtP env s1 r1 := by
    intro vs r2 c hc hvs
    cases hc with
    | none =>
      obtain rfl := hvs.nil_inv
      refine ⟨_, ?_, .inr ⟨_, _, hle, rfl⟩⟩
      rw [bind_ok (lookPath_at (.inl rfl) hle), if_pos (by rcases hec with rfl | rfl <;> simp [Lexeme.plain])]
      rfl
    | some vs c hc =>
      obtain ⟨lx, us', rfl, n1, n2, n3⟩ := GBound_first hc
      obtain ⟨ra, hra, _⟩ := hvs.cons_inv
      refine ⟨⟨r1, none⟩, ?_, .inl rfl⟩
      rw [bind_ok (lookPath_at (.inl rfl) hra.path_inv), if_neg (by simp [n1, n2]),
        bind_ok (pSliceVal_complete hc (.inr ⟨_, _, hra.path_inv, rfl⟩) hvs)]
      rfl
  -- the rest after its second bound
  have hmid : ∀ (s2 : LState) (r2 : Rd), AtP env s2 r2 → ((c = none ∧ r2 = r1) ∨ ∃ vs, GBound? env.reValid vs c ∧
        Lexes env r2 (.p (c! ':') :: vs) r1) →
      ∃ s1, (do
        let t ← lookPath env
        if t = .ch (c! ']') ∨ t = .ch (c! ',') then pure ⟨.select, [.slice ⟨start, b, none⟩]⟩
        else if t = .ch (c! ':') then do
          let _ ← lexPathP env
          let tok ← lookPath env
          if tok = .ch (c! ',') ∨ tok = .ch (c! ']') then pure ⟨.select, [.slice ⟨start, b, none⟩]⟩
          else do
            let e ← pSliceVal env
            pure ⟨.select, [.slice ⟨start, b, some e⟩]⟩
        else do
          let t ← lookPath env
          let off ← P.offset
          P.fail (.unexpectedTokenAt t off) : P Step) s2 = .ok (⟨.select, [.slice ⟨start, b, c⟩]⟩, s1) ∧ AtP env s1 r1 := by
    intro s2 r2 hs2 h
    rcases h with ⟨rfl, rfl⟩ | ⟨vs, hc, hvs⟩
    · refine ⟨_, ?_, .inr ⟨_, _, hle, rfl⟩⟩
      rw [bind_ok (lookPath_at hs2 hle), if_pos (by rcases hec with rfl | rfl <;> simp [Lexeme.plain])]
      rfl
    · obtain ⟨ra, hra, hvs2⟩ := hvs.cons_inv
      have hl := hra.path_inv
      obtain ⟨s1, h1, h2⟩ := hlast vs ra c hc hvs2
      refine ⟨s1, ?_, h2⟩
      rw [bind_ok (lookPath_at hs2 hl), if_neg (by simp [Lexeme.plain]), if_pos (by rfl),
        bind_ok (lexPathP_at (.inr ⟨_, _, hl, rfl⟩) hl)]
      exact h1
  unfold pSlice
  dsimp only
  obtain ⟨us1, r2, hb, hus1, hrest⟩ : ∃ us1 r2, GBound? env.reValid us1 b ∧ Lexes env r us1 r2 ∧
      ((c = none ∧ r2 = r1) ∨ ∃ vs, GBound? env.reValid vs c ∧ Lexes env r2 (.p (c! ':') :: vs) r1) := by
    cases h with
    | two _ _ hb => exact ⟨us, r1, hb, hlx, .inl ⟨rfl, rfl⟩⟩
    | three us' _ vs _ hb hc =>
      obtain ⟨ra, hra, hlx2⟩ := hlx.split
      exact ⟨us', ra, hb, hra, .inr ⟨vs, hc, hlx2⟩⟩
  cases hb with
  | none =>
    obtain rfl := hus1.nil_inv
    rcases hrest with ⟨rfl, rfl⟩ | ⟨vs, hc, hvs⟩
    · refine ⟨_, ?_, .inr ⟨_, _, hle, rfl⟩⟩
      rw [bind_ok (lookPath_at (.inl rfl) hle), if_pos (by rcases hec with rfl | rfl <;> simp [Lexeme.plain])]
      rfl
    · obtain ⟨ra, hra, _⟩ := hvs.cons_inv
      have hl := hra.path_inv
      obtain ⟨s1, h1, h2⟩ := hmid ⟨ra, some (.plain (.ch (c! ':')))⟩ r2 (.inr ⟨_, _, hl, rfl⟩) (.inr ⟨vs, hc, hvs⟩)
      refine ⟨s1, ?_, h2⟩
      rw [bind_ok (lookPath_at (.inl rfl) hl), if_neg (by simp [Lexeme.plain]), if_neg (by simp [Lexeme.plain])]
      exact h1
  | some _ b hb =>
    obtain ⟨lx, us', rfl, n1, n2, n3⟩ := GBound_first hb
    obtain ⟨ra, hra, _⟩ := hus1.cons_inv
    obtain ⟨s1, h1, h2⟩ := hmid ⟨r2, none⟩ r2 (.inl rfl) hrest
    refine ⟨s1, ?_, h2⟩
    rw [bind_ok (lookPath_at (.inl rfl) hra.path_inv), if_neg (by simp [n1, n2]), if_pos n3,
      bind_ok (pSliceVal_complete hb (.inr ⟨_, _, hra.path_inv, rfl⟩) hus1)]
    exact h1

theorem pVal_complete {ts : List Token} {x : Step} (h : GVal env.reValid ts x) {s : LState} {r r1 : Rd} (hs : AtP env s r)
    (hlx : Lexes env r ts r1) (he : NextEnds env r1) : ∃ s1, pVal env s = .ok (x, s1) ∧ AtP env s1 r1 := by
  have he' := he
  obtain ⟨ec, re, hle, hec⟩ := he
  have hne : (Lexeme.plain (.ch ec)).tok ≠ .ch (c! ':') := by rcases hec with rfl | rfl <;> simp [Lexeme.plain]
  unfold pVal
  cases h with
  | wild => exact ⟨_, by rw [bind_ok (lexPathP_at hs hlx.one_inv.path_inv)]; rfl, .inl rfl⟩
  | str n => exact ⟨_, by rw [bind_ok (lexPathP_at hs hlx.one_inv.path_inv)]; rfl, .inl rfl⟩
  | name n => exact ⟨_, by rw [bind_ok (lexPathP_at hs hlx.one_inv.path_inv)]; rfl, .inl rfl⟩
  | int n =>
    refine ⟨_, ?_, .inr ⟨_, _, hle, rfl⟩⟩
    rw [bind_ok (lexPathP_at hs hlx.one_inv.path_inv)]
    dsimp only
    rw [if_neg (by decide), if_neg (by decide), if_neg (by decide), if_neg (by decide), if_pos rfl,
      bind_ok (a := n) (s1 := ⟨r1, none⟩) rfl, bind_ok (lookPath_at (.inl rfl) hle), if_neg hne]
    rfl
  | filter ts e hg =>
    obtain ⟨ra, hra, hlx2⟩ := hlx.cons_inv
    refine ⟨⟨r1, none⟩, ?_, .inl rfl⟩
    rw [bind_ok (lexPathP_at hs hra.path_inv)]
    show (pParenExpr env >>= fun e => pure ⟨.filter, [.expr e]⟩ : P Step) ⟨ra, none⟩ = _
    rw [bind_ok (pParenExpr_complete hg hlx2)]
    rfl
  | expr ts e hg =>
    obtain ⟨ra, hra, hlx2⟩ := hlx.cons_inv
    refine ⟨_, ?_, .inr ⟨_, _, hle, rfl⟩⟩
    rw [bind_ok (lexPathP_at hs hra.path_inv)]
    show (do
      let e ← pParenExpr env
      let t ← lookPath env
      if t = .ch (c! ':') then do
        let _ ← lexPathP env
        pSlice env (some (.expr e))
      else pure ⟨.exp, [.expr e]⟩ : P Step) ⟨ra, none⟩ = _
    rw [bind_ok (pParenExpr_complete hg hlx2), bind_ok (lookPath_at (.inl rfl) hle), if_neg hne]
    rfl
  | slice ts a us b c ha hb =>
    obtain ⟨ra, hra, hlx2⟩ := hlx.split
    obtain ⟨rb, hrb, hlx3⟩ := hlx2.cons_inv
    obtain ⟨s1, h1, h2⟩ := pSlice_complete hb a hlx3 he'
    refine ⟨s1, ?_, h2⟩
    have hl := hrb.path_inv
    cases ha with
    | none =>
      obtain rfl := hra.nil_inv
      rw [bind_ok (lexPathP_at hs hl)]
      exact h1
    | some _ _ ha =>
      cases ha with
      | int n =>
        rw [bind_ok (lexPathP_at hs hra.one_inv.path_inv)]
        dsimp only
        rw [if_neg (by decide), if_neg (by decide), if_neg (by decide), if_neg (by decide), if_pos rfl,
          bind_ok (a := n) (s1 := ⟨ra, none⟩) rfl, bind_ok (lookPath_at (.inl rfl) hl), if_pos (by rfl),
          bind_ok (lexPathP_at (.inr ⟨_, _, hl, rfl⟩) hl)]
        exact h1
      | expr ts e hg =>
        obtain ⟨rc, hrc, hlx4⟩ := hra.cons_inv
        rw [bind_ok (lexPathP_at hs hrc.path_inv)]
        show (do
          let e ← pParenExpr env
          let t ← lookPath env
          if t = .ch (c! ':') then do
            let _ ← lexPathP env
            pSlice env (some (.expr e))
          else pure ⟨.exp, [.expr e]⟩ : P Step) ⟨rc, none⟩ = _
        rw [bind_ok (pParenExpr_complete hg hlx4), bind_ok (lookPath_at (.inl rfl) hl),
          if_pos (by rfl), bind_ok (lexPathP_at (.inr ⟨_, _, hl, rfl⟩) hl)]
        exact h1

theorem pValList_complete {ts : List Token} {l : List Step} (h : GVals env.reValid ts l) : ∀ {s : LState} {r r1 r2 : Rd},
    AtP env s r → Lexes env r ts r1 → Reads env (.p (c! ']')) r1 r2 →
    Ev (fun f => pValList env f) s (l, ⟨r2, some (.plain (.ch (c! ']')))⟩) := by
  induction h with
  | one ts x hx =>
    intro s r r1 r2 hs hlx hrd
    have hl := hrd.path_inv
    obtain ⟨s1, h1, h2⟩ := pVal_complete hx hs hlx ⟨_, _, hl, .inr rfl⟩
    refine Ev.step (Ev.const (m := pure [x]) rfl) fun f => ?_
    show pValList env (f + 1) s = _
    conv => lhs; unfold pValList
    rw [bind_ok h1, bind_ok (lookPath_at h2 hl), if_pos (by simp [Lexeme.plain])]
  | cons ts x us xs hx hxs ih =>
    intro s r r1 r2 hs hlx hrd
    obtain ⟨ra, hra, hlx2⟩ := hlx.split
    obtain ⟨rb, hrb, hlx3⟩ := hlx2.cons_inv
    have hl := hrb.path_inv
    obtain ⟨s1, h1, h2⟩ := pVal_complete hx hs hra ⟨_, _, hl, .inl rfl⟩
    refine Ev.step (Ev.bind (k := fun _ vs => pure (x :: vs)) (ih (.inl rfl : AtP env ⟨rb, none⟩ rb) hlx3 hrd) (Ev.const rfl)) fun f => ?_
    show pValList env (f + 1) s = _
    conv => lhs; unfold pValList
    rw [bind_ok h1, bind_ok (lookPath_at h2 hl), if_neg (by simp [Lexeme.plain]), bind_ok (lexPathP_at (.inr ⟨_, _, hl, rfl⟩) hl)]

theorem elem_val {v : Bytes → Bool} {ts : List Token} {w : Val} (h : GElem v ts w) :
    ∃ x, GVal v ts x ∧ x.args = [w] ∧ ¬ (x.op = .wild ∨ x.op = .exp ∨ x.op = .filter) := by
  cases h with
  | int n => exact ⟨_, .int n, rfl, by simp⟩
  | str n => exact ⟨_, .str n, rfl, by simp⟩
  | name n => exact ⟨_, .name n, rfl, by simp⟩
  | slice ts s h =>
    cases h with
    | two ts a us b ha hb => exact ⟨_, .slice _ _ _ _ _ ha (.two _ _ hb), rfl, by simp⟩
    | three ts a us b vs c ha hb hc => exact ⟨_, .slice _ _ _ _ _ ha (.three _ _ _ _ hb hc), rfl, by simp⟩

theorem elems_vals {v : Bytes → Bool} {ts : List Token} {ws : List Val} (h : GElems v ts ws) :
    ∃ l, GVals v ts l ∧ unionArgs l = some ws ∧ notInUnion l = none ∧ l.length = ws.length := by
  induction h with
  | one ts w h =>
    obtain ⟨x, h1, h2, h3⟩ := elem_val h
    exact ⟨[x], .one _ _ h1, by simp [unionArgs, h2], by simp only [notInUnion, if_neg h3], rfl⟩
  | cons ts w us ws h hs ih =>
    obtain ⟨x, h1, h2, h3⟩ := elem_val h
    obtain ⟨l, h4, h5, h6, h7⟩ := ih
    exact ⟨x :: l, .cons _ _ _ _ h1 h4, by simp [unionArgs, h2, h5], by simp only [notInUnion, if_neg h3]; exact h6, by simp [h7]⟩

theorem subscript_complete {v : Bytes → Bool} {ts : List Token} {k : StepKind} (h : GSub v ts k) :
    ∃ l, GVals v ts l ∧ ∀ s, subscript l s = .ok (k.step true false, s) := by
  cases h with
  | wild => exact ⟨_, .one _ _ .wild, fun s => rfl⟩
  | filter ts e he => exact ⟨_, .one _ _ (.filter _ _ he), fun s => rfl⟩
  | expr ts e he => exact ⟨_, .one _ _ (.expr _ _ he), fun s => rfl⟩
  | one ts w h =>
    cases h with
    | int n => exact ⟨_, .one _ _ (.int _), fun s => rfl⟩
    | str n => exact ⟨_, .one _ _ (.str _), fun s => rfl⟩
    | name n => exact ⟨_, .one _ _ (.name _), fun s => rfl⟩
    | slice ts sl h =>
      cases h with
      | two ts a us b ha hb => exact ⟨_, .one _ _ (.slice _ _ _ _ _ ha (.two _ _ hb)), fun s => rfl⟩
      | three ts a us b vs c ha hb hc => exact ⟨_, .one _ _ (.slice _ _ _ _ _ ha (.three _ _ _ _ hb hc)), fun s => rfl⟩
  | union ts ws h hlen =>
    obtain ⟨l, h1, h2, h3, h4⟩ := elems_vals h
    refine ⟨l, h1, fun s => ?_⟩
    unfold subscript
    rw [h3]
    simp only [ite_self]
    match l, h2, h3, h4 with
    | [], _, _, h4 => simp at h4; omega
    | a :: l, h2, h3, h4 =>
      have hop : ¬ (a.op = .wild ∨ a.op = .exp ∨ a.op = .filter) := by
        intro hc; simp only [notInUnion, if_pos hc] at h3; cases h3
      dsimp only
      rw [if_neg (fun hc => hop (hc.elim .inl (fun h => .inr (.inr h)))), if_neg (fun hc => hop (.inr (.inl hc))), h2]
      match ws, hlen with
      | w1 :: w2 :: ws, _ => rfl

theorem pBrackets_complete {ts : List Token} {k : StepKind} (h : GSub env.reValid ts k) {r r1 : Rd}
    (hlx : Lexes env r (ts ++ [.p (c! ']')]) r1) : pBrackets env ⟨r, none⟩ = .ok (k.step true false, ⟨r1, none⟩) := by
  obtain ⟨ra, hra, hlx2⟩ := hlx.split
  have hrd := hlx2.one_inv
  obtain ⟨l, h1, h2⟩ := subscript_complete h
  unfold pBrackets
  rw [bind_ok (m := fun s => pValList env (pathFuel s) s) (pValList_of (pValList_complete h1 (.inl rfl) hra hrd)), bind_ok (h2 _),
    bind_ok (expectP_of (.inr ⟨_, _, hrd.path_inv, rfl⟩) hrd)]
  rfl

/-- The first token of what follows dots. -/
theorem GMember_first {v : Bytes → Bool} {ts : List Token} {m : Option Val} (h : GMember v ts m) :
    ∃ lx us, ts = .path lx :: us ∧ lx.tok ≠ .ch (c! '[') := by
  cases h with
  | wild => exact ⟨_, _, rfl, by simp [Lexeme.plain]⟩
  | name n => exact ⟨_, _, rfl, by simp [Lexeme.plain]⟩
  | int n => exact ⟨_, _, rfl, by simp [Lexeme.plain]⟩
  | expr ts e => exact ⟨_, _, rfl, by simp [Lexeme.plain]⟩

/-- One step. -/
theorem pSteps_one {ts : List Token} {x : Step} (hx : GStep env.reValid ts x) {r ra : Rd} (hra : Lexes env r ts ra) (f : Nat) (acc : Path) :
    pSteps env (f + 1) acc ⟨r, none⟩ = pSteps env f (acc ++ [x]) ⟨ra, none⟩ := by
  conv => lhs; unfold pSteps
  cases hx with
  | member ts m hm =>
    obtain ⟨rb, hrb, hlx3⟩ := hra.cons_inv
    rw [bind_ok (lexPathP_at (.inl rfl) hrb.path_inv)]
    dsimp only [Lexeme.plain]
    rw [if_pos (by decide), bind_ok (pMember_complete hm (.inl rfl) hlx3)]
    cases m <;> rfl
  | nestMember ts m hm =>
    obtain ⟨rb, hrb, hlx3⟩ := hra.cons_inv
    obtain ⟨lx, us', rfl, hne⟩ := GMember_first hm
    obtain ⟨rc, hrc, _⟩ := hlx3.cons_inv
    rw [bind_ok (lexPathP_at (.inl rfl) hrb.path_inv)]
    dsimp only [Lexeme.plain]
    rw [bind_ok (lookPath_at (.inl rfl) hrc.path_inv), if_neg hne,
      bind_ok (pMember_complete hm (.inr ⟨_, _, hrc.path_inv, rfl⟩) hlx3)]
    cases m <;> rfl
  | sub ts k hk =>
    obtain ⟨rb, hrb, hlx3⟩ := hra.cons_inv
    rw [bind_ok (lexPathP_at (.inl rfl) hrb.path_inv)]
    dsimp only [Lexeme.plain]
    rw [if_neg (by decide), if_pos (by decide), bind_ok (pBrackets_complete hk hlx3)]
  | nestSub ts k hk =>
    obtain ⟨rb, hrb, hlx3⟩ := hra.cons_inv
    obtain ⟨rc, hrc, hlx4⟩ := hlx3.cons_inv
    have hl3 := hrc.path_inv
    rw [bind_ok (lexPathP_at (.inl rfl) hrb.path_inv)]
    dsimp only [Lexeme.plain]
    rw [bind_ok (lookPath_at (.inl rfl) hl3), if_pos (by rfl), bind_ok (lexPathP_at (.inr ⟨_, _, hl3, rfl⟩) hl3),
      bind_ok (pBrackets_complete hk hlx4)]
    obtain ⟨op, ho1, ho2⟩ := nestOp_step hk
    rw [ho1]
    dsimp only
    rw [ho2]

theorem pSteps_complete {ts : List Token} {p : Path} (h : GSteps env.reValid ts p) : ∀ (acc : Path) {r r1 r2 : Rd},
    Lexes env r ts r1 → lexPath env r1 = some (.plain .eof, r2) →
    Ev (fun f => pSteps env f acc) ⟨r, none⟩ (acc ++ p, ⟨r2, none⟩) := by
  induction h with
  | nil =>
    intro acc r r1 r2 hlx hl
    obtain rfl := hlx.nil_inv
    refine Ev.step (Ev.const (m := pure _) rfl) fun f => ?_
    show pSteps env (f + 1) acc _ = _
    conv => lhs; unfold pSteps
    rw [bind_ok (lexPathP_at (.inl rfl) hl), List.append_nil]
    rfl
  | cons ts x us p hx hp ih =>
    intro acc r r1 r2 hlx hl
    obtain ⟨ra, hra, hlx2⟩ := hlx.split
    have ih := ih (acc ++ [x]) hlx2 hl
    rw [List.append_assoc] at ih
    exact Ev.step ih fun f => pSteps_one hx hra f acc

theorem parsePath_complete {text : Bytes} {p : Path} {ts : List Token} {r1 r2 : Rd} (hlx : Lexes env ⟨[], text⟩ ts r1)
    (hg : GPath env.reValid ts p) (hl : lexPath env r1 = some (.plain .eof, r2)) : parsePath env text = .ok p := by
  obtain ⟨us, hs, rfl⟩ := hg
  obtain ⟨ra, hra, hlx2⟩ := hlx.cons_inv
  have h1 : pPath env ⟨⟨[], text⟩, none⟩ = .ok (p, ⟨r2, none⟩) := by
    unfold pPath
    rw [bind_ok (expectP_of (.inl rfl) hra)]
    exact pSteps_of (pSteps_complete hs [] hlx2 hl)
  unfold parsePath
  rw [h1]

theorem parseScript_complete {text : Bytes} {e : Expr} {ts : List Token} {r1 r2 : Rd} (hlx : Lexes env ⟨[], text⟩ ts r1)
    (hg : GExpr env.reValid 0 ts e) (hl : lexExpr env r1 = some (.plain .eof, r2)) :
    parseScriptExpression env text = .ok e := by
  have h1 := expr_complete hg hlx hl (stop_eof 0)
  have hO : AtO env ⟨r2, some (opLexeme (.plain .eof))⟩ r1 := ⟨_, _, hl, rfl⟩
  unfold parseScriptExpression
  dsimp only
  rw [bind_ok h1, bind_ok (lexExprP_atO hO hl), bind_ok (m := P.offset) rfl]
  rfl

end JP
