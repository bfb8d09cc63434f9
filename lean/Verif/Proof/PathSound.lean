import Verif.Proof.ParseSound
/-! What the parser of paths accepts is derived by the grammar, with the steps that it returns. -/
namespace JP
open Spec

variable {env : Env}

theorem Reads.of_path_ch {r r' : Rd} {lx : Lexeme} {c : UInt8} (hl : lexPath env r = some (lx, r')) (ht : lx.tok = .ch c) :
    Reads env (.p c) r r' := by
  have := (lexPath_shape hl).ch ht
  simp only at this
  subst this
  exact .path hl rfl (by simp [Lexeme.plain])

theorem Reads.of_path_tok {r r' : Rd} {lx : Lexeme} {t : Tok} (hl : lexPath env r = some (lx, r')) (hp : t.isPlain = true)
    (he : t ≠ .eof) (ht : lx.tok = t) : Reads env (.path (.plain t)) r r' := by
  have := (lexPath_shape hl).plainTok hp ht
  simp only at this
  subst this
  exact .path hl rfl he

theorem Lexeme.Shape.nameOf {lx : Lexeme} (h : lx.Shape) (ht : lx.tok = .id) : ∃ n, lx = nameTok n := by
  cases h with
  | name n => exact ⟨n, rfl⟩
  | plain t hp => simp only [Lexeme.plain] at ht; subst ht; simp [Tok.isPlain] at hp
  | fail e => simp [Lexeme.fail] at ht
  | _ => simp at ht
theorem Lexeme.Shape.strOf {lx : Lexeme} (h : lx.Shape) (ht : lx.tok = .string) : ∃ n, lx = strTok n := by
  cases h with
  | str n => exact ⟨n, rfl⟩
  | plain t hp => simp only [Lexeme.plain] at ht; subst ht; simp [Tok.isPlain] at hp
  | fail e => simp [Lexeme.fail] at ht
  | _ => simp at ht
theorem Lexeme.Shape.intOf {lx : Lexeme} (h : lx.Shape) (ht : lx.tok = .int) : ∃ n, lx = intTok n := by
  cases h with
  | int n => exact ⟨n, rfl⟩
  | plain t hp => simp only [Lexeme.plain] at ht; subst ht; simp [Tok.isPlain] at hp
  | fail e => simp [Lexeme.fail] at ht
  | _ => simp at ht

theorem pParenExpr_sound {r : Rd} {e : Expr} {s' : LState} (h : pParenExpr env ⟨r, none⟩ = .ok (e, s')) :
    ∃ ts r1, Lexes env r ts r1 ∧ GParen env.reValid ts e ∧ s' = ⟨r1, none⟩ := by
  unfold pParenExpr at h
  obtain ⟨e1, s1, h1, h⟩ := bind_ok_inv h
  obtain ⟨ts, r1, ht, hg, hO, _⟩ := pExpr_sound _ 0 (.inl rfl) h1
  obtain ⟨_, s2, h2, h⟩ := bind_ok_inv h
  rw [expectO_path hO] at h2
  obtain ⟨r2, hr2, rfl⟩ := expectO_inv hO h2
  obtain ⟨rfl, rfl⟩ := pure_ok_inv h
  exact ⟨_, r2, ht.append (.one hr2), ⟨ts, hg, rfl⟩, rfl⟩

theorem pMember_sound {s : LState} {r : Rd} {m : Option Val} {s' : LState} (hs : AtP env s r)
    (h : pMember env s = .ok (m, s')) : ∃ ts r1, Lexes env r ts r1 ∧ GMember env.reValid ts m ∧ s' = ⟨r1, none⟩ := by
  unfold pMember at h
  obtain ⟨lx, r', hl⟩ := lexPath_some env r
  rw [bind_ok (lexPathP_at hs hl)] at h
  have hsh := lexPath_shape hl
  cases he : lx.err with
  | some e => simp only [he] at h; cases h
  | none =>
    simp only [he] at h
    by_cases h1 : lx.tok = .ch (c! '*')
    · rw [if_pos h1] at h
      obtain ⟨rfl, rfl⟩ := pure_ok_inv h
      exact ⟨_, _, .one (.of_path_ch hl h1), .wild, rfl⟩
    rw [if_neg h1] at h
    by_cases h2 : lx.tok = .id
    · rw [if_pos h2] at h
      obtain ⟨n, rfl⟩ := hsh.nameOf h2
      have h : (pure (some (.name n)) : P (Option Val)) ⟨r', none⟩ = .ok (m, s') := h
      obtain ⟨rfl, rfl⟩ := pure_ok_inv h
      exact ⟨_, _, .one (.path hl rfl (by simp)), .name _, rfl⟩
    rw [if_neg h2] at h
    by_cases h3 : lx.tok = .int
    · rw [if_pos h3] at h
      obtain ⟨n, rfl⟩ := hsh.intOf h3
      have h : (pure (some (.int n)) : P (Option Val)) ⟨r', none⟩ = .ok (m, s') := h
      obtain ⟨rfl, rfl⟩ := pure_ok_inv h
      exact ⟨_, _, .one (.path hl rfl (by simp)), .int _, rfl⟩
    rw [if_neg h3] at h
    by_cases h4 : lx.tok = .ch (c! '(')
    · rw [if_pos h4] at h
      obtain ⟨e, s1, h5, h⟩ := bind_ok_inv h
      obtain ⟨rfl, rfl⟩ := pure_ok_inv h
      obtain ⟨ts, r1, ht, hg, rfl⟩ := pParenExpr_sound h5
      exact ⟨_, _, .cons (.of_path_ch hl h4) ht, .expr _ _ hg, rfl⟩
    rw [if_neg h4] at h
    cases h

theorem pSliceVal_sound {s : LState} {r : Rd} {b : Bound} {s' : LState} (hs : AtP env s r)
    (h : pSliceVal env s = .ok (b, s')) : ∃ ts r1, Lexes env r ts r1 ∧ GBound env.reValid ts b ∧ s' = ⟨r1, none⟩ := by
  unfold pSliceVal at h
  obtain ⟨lx, r', hl⟩ := lexPath_some env r
  rw [bind_ok (lexPathP_at hs hl)] at h
  have hsh := lexPath_shape hl
  by_cases h4 : lx.tok = .ch (c! '(')
  · rw [if_pos h4] at h
    obtain ⟨e, s1, h5, h⟩ := bind_ok_inv h
    obtain ⟨rfl, rfl⟩ := pure_ok_inv h
    obtain ⟨ts, r1, ht, hg, rfl⟩ := pParenExpr_sound h5
    exact ⟨_, _, .cons (.of_path_ch hl h4) ht, .expr _ _ hg, rfl⟩
  rw [if_neg h4] at h
  by_cases h3 : lx.tok = .int
  · rw [if_pos h3] at h
    obtain ⟨n, rfl⟩ := hsh.intOf h3
    have h : (pure (.int n) : P Bound) ⟨r', none⟩ = .ok (b, s') := h
    obtain ⟨rfl, rfl⟩ := pure_ok_inv h
    exact ⟨_, _, .one (.path hl rfl (by simp)), .int _, rfl⟩
  rw [if_neg h3] at h
  cases h

/-- What follows the first colon of a slice. -/
inductive GTail (v : Bytes → Bool) : List Token → Option Bound → Option Bound → Prop
  | two (us b) : GBound? v us b → GTail v us b none
  | three (us b vs c) : GBound? v us b → GBound? v vs c → GTail v (us ++ .p (c! ':') :: vs) b c

theorem GTail.slice {v : Bytes → Bool} {ts us : List Token} {a b c : Option Bound} (ha : GBound? v ts a)
    (h : GTail v us b c) : GSlice v (ts ++ .p (c! ':') :: us) ⟨a, b, c⟩ := by
  cases h with
  | two us b hb => exact .two _ _ _ _ ha hb
  | three us b vs c hb hc => exact .three _ _ _ _ _ _ ha hb hc

theorem pSlice_sound {s : LState} {r : Rd} {start : Option Bound} {x : Step} {s' : LState} (hs : AtP env s r)
    (h : pSlice env start s = .ok (x, s')) :
    ∃ us r1 b c, Lexes env r us r1 ∧ GTail env.reValid us b c ∧ x = ⟨.select, [.slice ⟨start, b, c⟩]⟩ ∧ AtP env s' r1 := by
  unfold pSlice at h
  dsimp only at h
  obtain ⟨lx, r', hl⟩ := lexPath_some env r
  rw [bind_ok (lookPath_at hs hl)] at h
  have hP : AtP env ⟨r', some lx⟩ r := .inr ⟨lx, r', hl, rfl⟩
  by_cases h1 : lx.tok = .ch (c! ',') ∨ lx.tok = .ch (c! ']')
  · rw [if_pos h1] at h
    obtain ⟨rfl, rfl⟩ := pure_ok_inv h
    exact ⟨[], r, none, none, .nil, .two _ _ .none, rfl, hP⟩
  rw [if_neg h1] at h
  let K : Option Bound → P Step := fun stop => do
    let t ← lookPath env
    if t = .ch (c! ']') ∨ t = .ch (c! ',') then pure ⟨.select, [.slice ⟨start, stop, none⟩]⟩
    else if t = .ch (c! ':') then do
      let _ ← lexPathP env
      let tok ← lookPath env
      if tok = .ch (c! ',') ∨ tok = .ch (c! ']') then pure ⟨.select, [.slice ⟨start, stop, none⟩]⟩
      else do
        let e ← pSliceVal env
        pure ⟨.select, [.slice ⟨start, stop, some e⟩]⟩
    else do
      let t ← lookPath env
      let off ← P.offset
      P.fail (.unexpectedTokenAt t off)
  obtain ⟨stop, s1, us, r1, hu, hgb, hs1, h⟩ : ∃ stop s1 us r1, Lexes env r us r1 ∧ GBound? env.reValid us stop ∧
      AtP env s1 r1 ∧ K stop s1 = .ok (x, s') := by
    by_cases hc : lx.tok ≠ .ch (c! ':')
    · rw [if_pos hc] at h
      obtain ⟨a, s1, h2, h⟩ := bind_ok_inv h
      obtain ⟨us, r1, hu, hg, rfl⟩ := pSliceVal_sound hP h2
      exact ⟨some a, _, us, r1, hu, .some _ _ hg, .inl rfl, h⟩
    · rw [if_neg hc] at h
      exact ⟨none, _, [], r, .nil, .none, hP, h⟩
  dsimp only [K] at h
  obtain ⟨lx1, r2, hl1⟩ := lexPath_some env r1
  rw [bind_ok (lookPath_at hs1 hl1)] at h
  have hP1 : AtP env ⟨r2, some lx1⟩ r1 := .inr ⟨lx1, r2, hl1, rfl⟩
  by_cases h3 : lx1.tok = .ch (c! ']') ∨ lx1.tok = .ch (c! ',')
  · rw [if_pos h3] at h
    obtain ⟨rfl, rfl⟩ := pure_ok_inv h
    exact ⟨us, r1, stop, none, hu, .two _ _ hgb, rfl, hP1⟩
  rw [if_neg h3] at h
  by_cases h4 : lx1.tok = .ch (c! ':')
  · rw [if_pos h4, bind_ok (lexPathP_at hP1 hl1)] at h
    obtain ⟨lx2, r3, hl2⟩ := lexPath_some env r2
    rw [bind_ok (lookPath_at (.inl rfl) hl2)] at h
    have hP2 : AtP env ⟨r3, some lx2⟩ r2 := .inr ⟨lx2, r3, hl2, rfl⟩
    have hrd : Reads env (.p (c! ':')) r1 r2 := .of_path_ch hl1 h4
    by_cases h5 : lx2.tok = .ch (c! ',') ∨ lx2.tok = .ch (c! ']')
    · rw [if_pos h5] at h
      obtain ⟨rfl, rfl⟩ := pure_ok_inv h
      exact ⟨_, r2, stop, none, hu.append (.one hrd), .three _ _ _ _ hgb .none, rfl, hP2⟩
    · rw [if_neg h5] at h
      obtain ⟨e, s2, h6, h⟩ := bind_ok_inv h
      obtain ⟨rfl, rfl⟩ := pure_ok_inv h
      obtain ⟨vs, r4, hv, hg, rfl⟩ := pSliceVal_sound hP2 h6
      exact ⟨_, r4, stop, some e, hu.append (.cons hrd hv), .three _ _ _ _ hgb (.some _ _ hg), rfl, .inl rfl⟩
  · rw [if_neg h4] at h
    rw [bind_ok (lookPath_at hP1 hl1), bind_ok (m := P.offset) rfl] at h
    cases h

/-- The elements of subscripts, as the parser represents them. -/
inductive GVal (v : Bytes → Bool) : List Token → Step → Prop
  | wild : GVal v [.p (c! '*')] ⟨.wild, []⟩
  | filter (ts e) : GParen v ts e → GVal v (.path (.plain .filter) :: ts) ⟨.filter, [.expr e]⟩
  | expr (ts e) : GParen v ts e → GVal v (.p (c! '(') :: ts) ⟨.exp, [.expr e]⟩
  | int (n) : GVal v [.path (intTok n)] ⟨.int, [.int n]⟩
  | str (n) : GVal v [.path (strTok n)] ⟨.string, [.str n]⟩
  | name (n) : GVal v [.path (nameTok n)] ⟨.id, [.name n]⟩
  | slice (ts a us b c) : GBound? v ts a → GTail v us b c →
      GVal v (ts ++ .p (c! ':') :: us) ⟨.select, [.slice ⟨a, b, c⟩]⟩

theorem pVal_sound {s : LState} {r : Rd} {x : Step} {s' : LState} (hs : AtP env s r) (h : pVal env s = .ok (x, s')) :
    ∃ ts r1, Lexes env r ts r1 ∧ GVal env.reValid ts x ∧ AtP env s' r1 := by
  unfold pVal at h
  obtain ⟨lx, r', hl⟩ := lexPath_some env r
  rw [bind_ok (lexPathP_at hs hl)] at h
  have hsh := lexPath_shape hl
  cases he : lx.err with
  | some e => simp only [he] at h; cases h
  | none =>
  simp only [he] at h
  by_cases h1 : lx.tok = .ch (c! '*')
  · rw [if_pos h1] at h
    obtain ⟨rfl, rfl⟩ := pure_ok_inv h
    exact ⟨_, _, .one (.of_path_ch hl h1), .wild, .inl rfl⟩
  rw [if_neg h1] at h
  by_cases h2 : lx.tok = .ch (c! '(')
  · rw [if_pos h2] at h
    obtain ⟨e, s1, h3, h⟩ := bind_ok_inv h
    obtain ⟨ts, r1, ht, hg, rfl⟩ := pParenExpr_sound h3
    obtain ⟨lx1, r2, hl1⟩ := lexPath_some env r1
    rw [bind_ok (lookPath_at (.inl rfl) hl1)] at h
    have hP1 : AtP env ⟨r2, some lx1⟩ r1 := .inr ⟨lx1, r2, hl1, rfl⟩
    have hpre : Lexes env r (.p (c! '(') :: ts) r1 := .cons (.of_path_ch hl h2) ht
    by_cases h4 : lx1.tok = .ch (c! ':')
    · rw [if_pos h4, bind_ok (lexPathP_at hP1 hl1)] at h
      obtain ⟨us, r3, b, c, hu, hgt, rfl, hP⟩ := pSlice_sound (.inl rfl) h
      exact ⟨_, r3, hpre.append (.cons (.of_path_ch hl1 h4) hu), .slice _ _ _ _ _ (.some _ _ (.expr _ _ hg)) hgt, hP⟩
    · rw [if_neg h4] at h
      obtain ⟨rfl, rfl⟩ := pure_ok_inv h
      exact ⟨_, r1, hpre, .expr _ _ hg, hP1⟩
  rw [if_neg h2] at h
  by_cases h3 : lx.tok = .ch (c! ':')
  · rw [if_pos h3] at h
    obtain ⟨us, r3, b, c, hu, hgt, rfl, hP⟩ := pSlice_sound (.inl rfl) h
    exact ⟨_, r3, .cons (.of_path_ch hl h3) hu, .slice [] _ _ _ _ .none hgt, hP⟩
  rw [if_neg h3] at h
  by_cases h4 : lx.tok = .filter
  · rw [if_pos h4] at h
    obtain ⟨e, s1, h5, h⟩ := bind_ok_inv h
    obtain ⟨rfl, rfl⟩ := pure_ok_inv h
    obtain ⟨ts, r1, ht, hg, rfl⟩ := pParenExpr_sound h5
    exact ⟨_, r1, .cons (.of_path_tok hl rfl (by simp) h4) ht, .filter _ _ hg, .inl rfl⟩
  rw [if_neg h4] at h
  by_cases h5 : lx.tok = .int
  · rw [if_pos h5] at h
    obtain ⟨n, rfl⟩ := hsh.intOf h5
    have hpre : Lexes env r [.path (intTok n)] r' := .one (.path hl rfl (by simp))
    rw [bind_ok (a := n) (s1 := ⟨r', none⟩) rfl] at h
    obtain ⟨lx1, r2, hl1⟩ := lexPath_some env r'
    rw [bind_ok (lookPath_at (.inl rfl) hl1)] at h
    have hP1 : AtP env ⟨r2, some lx1⟩ r' := .inr ⟨lx1, r2, hl1, rfl⟩
    by_cases h6 : lx1.tok = .ch (c! ':')
    · rw [if_pos h6, bind_ok (lexPathP_at hP1 hl1)] at h
      obtain ⟨us, r3, b, c, hu, hgt, rfl, hP⟩ := pSlice_sound (.inl rfl) h
      exact ⟨_, r3, hpre.append (.cons (.of_path_ch hl1 h6) hu), .slice _ _ _ _ _ (.some _ _ (.int _)) hgt, hP⟩
    · rw [if_neg h6] at h
      obtain ⟨rfl, rfl⟩ := pure_ok_inv h
      exact ⟨_, r', hpre, .int _, hP1⟩
  rw [if_neg h5] at h
  by_cases h6 : lx.tok = .string
  · rw [if_pos h6] at h
    obtain ⟨n, rfl⟩ := hsh.strOf h6
    rw [bind_ok (a := n) (s1 := ⟨r', none⟩) rfl] at h
    obtain ⟨rfl, rfl⟩ := pure_ok_inv h
    exact ⟨_, _, .one (.path hl rfl (by simp)), .str _, .inl rfl⟩
  rw [if_neg h6] at h
  by_cases h7 : lx.tok = .id
  · rw [if_pos h7] at h
    obtain ⟨n, rfl⟩ := hsh.nameOf h7
    rw [bind_ok (a := n) (s1 := ⟨r', none⟩) rfl] at h
    obtain ⟨rfl, rfl⟩ := pure_ok_inv h
    exact ⟨_, _, .one (.path hl rfl (by simp)), .name _, .inl rfl⟩
  rw [if_neg h7] at h
  cases h

/-- One or more elements of a subscript, separated by commas. -/
inductive GVals (v : Bytes → Bool) : List Token → List Step → Prop
  | one (ts x) : GVal v ts x → GVals v ts [x]
  | cons (ts x us xs) : GVal v ts x → GVals v us xs → GVals v (ts ++ .p (c! ',') :: us) (x :: xs)

theorem pValList_sound : ∀ (f : Nat) {s : LState} {r : Rd} {l : List Step} {s' : LState}, AtP env s r →
    pValList env f s = .ok (l, s') → ∃ ts r1, Lexes env r ts r1 ∧ GVals env.reValid ts l ∧ AtP env s' r1
  | 0, _, _, _, _, _, h => by cases h
  | f + 1, s, r, l, s', hs, h => by
    unfold pValList at h
    obtain ⟨x, s1, h1, h⟩ := bind_ok_inv h
    obtain ⟨ts, r1, ht, hg, hP⟩ := pVal_sound hs h1
    obtain ⟨lx, r', hl⟩ := lexPath_some env r1
    rw [bind_ok (lookPath_at hP hl)] at h
    have hP1 : AtP env ⟨r', some lx⟩ r1 := .inr ⟨lx, r', hl, rfl⟩
    by_cases hc : lx.tok = .ch (c! ',')
    · rw [if_neg (by simpa using hc), bind_ok (lexPathP_at hP1 hl)] at h
      obtain ⟨xs, s2, h2, h⟩ := bind_ok_inv h
      obtain ⟨rfl, rfl⟩ := pure_ok_inv h
      obtain ⟨us, r2, hu, hgs, hP2⟩ := pValList_sound f (.inl rfl) h2
      exact ⟨_, r2, ht.append (.cons (.of_path_ch hl hc) hu), .cons _ _ _ _ hg hgs, hP2⟩
    · rw [if_pos hc] at h
      obtain ⟨rfl, rfl⟩ := pure_ok_inv h
      exact ⟨ts, r1, ht, .one _ _ hg, hP1⟩

/-- The elements that may be in a union. -/
theorem GVal_elem {v : Bytes → Bool} {ts : List Token} {x : Step} (h : GVal v ts x)
    (hn : ¬ (x.op = .wild ∨ x.op = .exp ∨ x.op = .filter)) : ∃ w, x.args = [w] ∧ GElem v ts w := by
  cases h with
  | wild => simp at hn
  | filter => simp at hn
  | expr => simp at hn
  | int n => exact ⟨_, rfl, .int _⟩
  | str n => exact ⟨_, rfl, .str _⟩
  | name n => exact ⟨_, rfl, .name _⟩
  | slice ts a us b c ha hb => exact ⟨_, rfl, .slice _ _ (hb.slice ha)⟩

theorem GVals_elems {v : Bytes → Bool} {ts : List Token} {l : List Step} (h : GVals v ts l) (hn : notInUnion l = none) :
    ∃ ws, unionArgs l = some ws ∧ ws.length = l.length ∧ GElems v ts ws := by
  induction h with
  | one ts x hx =>
    simp only [notInUnion] at hn
    split at hn
    · cases hn
    · next hc =>
      obtain ⟨w, h1, h2⟩ := GVal_elem hx hc
      exact ⟨[w], by simp [unionArgs, h1], rfl, .one _ _ h2⟩
  | cons ts x us xs hx hxs ih =>
    simp only [notInUnion] at hn
    split at hn
    · cases hn
    · next hc =>
      obtain ⟨w, h1, h2⟩ := GVal_elem hx hc
      obtain ⟨ws, h3, h4, h5⟩ := ih hn
      exact ⟨w :: ws, by simp [unionArgs, h1, h3], by simp [h4], .cons _ _ _ _ h2 h5⟩

theorem subscript_sound {ts : List Token} {l : List Step} {x : Step} {s s' : LState} {v : Bytes → Bool} (hg : GVals v ts l)
    (h : subscript l s = .ok (x, s')) : s' = s ∧ ∃ k, GSub v ts k ∧ x = k.step true false := by
  unfold subscript at h
  cases hg with
  | one _ a ha =>
    simp only [List.length_cons, List.length_nil, Nat.zero_add, Nat.lt_irrefl, if_false, gt_iff_lt] at h
    cases ha with
    | wild => cases h; exact ⟨rfl, _, .wild, rfl⟩
    | filter ts e he => cases h; exact ⟨rfl, _, .filter _ _ he, rfl⟩
    | expr ts e he => cases h; exact ⟨rfl, _, .expr _ _ he, rfl⟩
    | int n => cases h; exact ⟨rfl, _, .one _ _ (.int _), rfl⟩
    | str n => cases h; exact ⟨rfl, _, .one _ _ (.str _), rfl⟩
    | name n => cases h; exact ⟨rfl, _, .one _ _ (.name _), rfl⟩
    | slice ts a us b c hab hbc => cases h; exact ⟨rfl, _, .one _ _ (.slice _ _ (hbc.slice hab)), rfl⟩
  | cons ts1 a us xs ha hxs =>
    have hlen : 1 < (a :: xs).length := by cases hxs <;> simp
    rw [if_pos hlen] at h
    cases hn : notInUnion (a :: xs) with
    | some op => rw [hn] at h; cases h
    | none =>
      rw [hn] at h
      obtain ⟨ws, h1, h2, h3⟩ := GVals_elems (.cons _ _ _ _ ha hxs) hn
      have hop : ¬ (a.op = .wild ∨ a.op = .exp ∨ a.op = .filter) := by
        intro hc; simp only [notInUnion, if_pos hc] at hn; cases hn
      dsimp only at h
      rw [if_neg (fun hc => hop (hc.elim .inl (fun h => .inr (.inr h)))), if_neg (fun hc => hop (.inr (.inl hc))), h1] at h
      match ws, h2, h3, h with
      | [], h2, _, _ => simp at h2
      | [w], h2, _, _ => simp at h2; simp [h2] at hlen
      | w1 :: w2 :: ws, h2, h3, h =>
        obtain ⟨rfl, rfl⟩ := pure_ok_inv h
        exact ⟨rfl, _, .union _ _ h3 (by simp), rfl⟩

theorem pBrackets_sound {r : Rd} {x : Step} {s' : LState} (h : pBrackets env ⟨r, none⟩ = .ok (x, s')) :
    ∃ ts r1 k, Lexes env r (ts ++ [.p (c! ']')]) r1 ∧ GSub env.reValid ts k ∧ x = k.step true false ∧ s' = ⟨r1, none⟩ := by
  unfold pBrackets at h
  obtain ⟨l, s1, h1, h⟩ := bind_ok_inv h
  obtain ⟨ts, r1, ht, hg, hP⟩ := pValList_sound _ (.inl rfl) h1
  obtain ⟨y, s2, h2, h⟩ := bind_ok_inv h
  obtain ⟨rfl, k, hk, rfl⟩ := subscript_sound hg h2
  obtain ⟨_, s3, h3, h⟩ := bind_ok_inv h
  obtain ⟨r2, hr2, rfl⟩ := expectP_inv hP h3
  obtain ⟨rfl, rfl⟩ := pure_ok_inv h
  exact ⟨ts, r2, k, ht.append (.one hr2), hk, rfl, rfl⟩

theorem nestOp_step {v : Bytes → Bool} {ts : List Token} {k : StepKind} (_ : GSub v ts k) :
    ∃ op, nestOp (k.step true false).op = some op ∧ ({ k.step true false with op := op } : Step) = k.step true true := by
  cases k <;> exact ⟨_, rfl, rfl⟩

theorem pSteps_sound : ∀ (f : Nat) (acc : Path) {s : LState} {r : Rd} {p : Path} {s' : LState}, AtP env s r →
    pSteps env f acc s = .ok (p, s') → ∃ ts r1 r2 q, Lexes env r ts r1 ∧ GSteps env.reValid ts q ∧ p = acc ++ q ∧
      lexPath env r1 = some (.plain .eof, r2)
  | 0, _, _, _, _, _, _, h => by cases h
  | f + 1, acc, s, r, p, s', hs, h => by
    unfold pSteps at h
    obtain ⟨lx, r', hl⟩ := lexPath_some env r
    rw [bind_ok (lexPathP_at hs hl)] at h
    have hsh := lexPath_shape hl
    simp only at hsh
    have next : ∀ (us : List Token) (x : Step) (r1 : Rd), Lexes env r us r1 → GStep env.reValid us x →
        pSteps env f (acc ++ [x]) ⟨r1, none⟩ = .ok (p, s') → ∃ ts r1 r2 q, Lexes env r ts r1 ∧ GSteps env.reValid ts q ∧
          p = acc ++ q ∧ lexPath env r1 = some (.plain .eof, r2) := by
      intro us x r1 hu hg h
      obtain ⟨ts, r2, r3, q, ht, hgs, rfl, he⟩ := pSteps_sound f _ (.inl rfl) h
      exact ⟨us ++ ts, r2, r3, x :: q, hu.append ht, .cons _ _ _ _ hg hgs, by simp, he⟩
    cases hsh with
    | fail er => cases h
    | name n => cases h
    | str n => cases h
    | int n => cases h
    | real n => cases h
    | plain t hp =>
      simp only [Lexeme.plain] at h
      cases t with
      | eof =>
        obtain ⟨rfl, rfl⟩ := pure_ok_inv h
        exact ⟨[], r, r', [], .nil, .nil, by simp, hl⟩
      | nest =>
        have hrd : Reads env (.path (.plain .nest)) r r' := .path hl rfl (by simp [Lexeme.plain])
        obtain ⟨lx1, r1, hl1⟩ := lexPath_some env r'
        dsimp only at h
        rw [bind_ok (lookPath_at (.inl rfl) hl1)] at h
        have hP1 : AtP env ⟨r1, some lx1⟩ r' := .inr ⟨lx1, r1, hl1, rfl⟩
        by_cases hc : lx1.tok = .ch (c! '[')
        · rw [if_pos hc, bind_ok (lexPathP_at hP1 hl1)] at h
          obtain ⟨x, s1, h1, h⟩ := bind_ok_inv h
          obtain ⟨ts, r2, k, ht, hk, rfl, rfl⟩ := pBrackets_sound h1
          obtain ⟨op, ho1, ho2⟩ := nestOp_step hk
          rw [ho1] at h
          dsimp only at h
          rw [ho2] at h
          exact next _ _ _ (.cons hrd (.cons (.of_path_ch hl1 hc) ht)) (.nestSub _ _ hk) h
        · rw [if_neg hc] at h
          obtain ⟨m, s1, h1, h⟩ := bind_ok_inv h
          obtain ⟨ts, r2, ht, hg, rfl⟩ := pMember_sound hP1 h1
          cases m with
          | none => exact next _ _ _ (.cons hrd ht) (.nestMember _ _ hg) h
          | some v => exact next _ _ _ (.cons hrd ht) (.nestMember _ _ hg) h
      | ch c =>
        have hrd : Reads env (.p c) r r' := .path hl rfl (by simp [Lexeme.plain])
        dsimp only at h
        by_cases h1 : c = c! '.'
        · rw [if_pos (by simpa using h1)] at h
          subst h1
          obtain ⟨m, s1, h1, h⟩ := bind_ok_inv h
          obtain ⟨ts, r2, ht, hg, rfl⟩ := pMember_sound (.inl rfl) h1
          cases m with
          | none => exact next _ _ _ (.cons hrd ht) (.member _ _ hg) h
          | some v => exact next _ _ _ (.cons hrd ht) (.member _ _ hg) h
        rw [if_neg (by simpa using h1)] at h
        by_cases h2 : c = c! '['
        · rw [if_pos (by simpa using h2)] at h
          subst h2
          obtain ⟨x, s1, h1, h⟩ := bind_ok_inv h
          obtain ⟨ts, r2, k, ht, hk, rfl, rfl⟩ := pBrackets_sound h1
          exact next _ _ _ (.cons hrd ht) (.sub _ _ hk) h
        rw [if_neg (by simpa using h2)] at h
        cases h
      | _ => first | (cases h; done) | simp [Tok.isPlain] at hp

theorem parsePath_sound {text : Bytes} {p : Path} (h : parsePath env text = .ok p) :
    ∃ ts r1 r2, Lexes env ⟨[], text⟩ ts r1 ∧ GPath env.reValid ts p ∧ lexPath env r1 = some (.plain .eof, r2) := by
  unfold parsePath at h
  cases hp : pPath env ⟨⟨[], text⟩, none⟩ with
  | ok x =>
    rw [hp] at h
    obtain ⟨p', s'⟩ := x
    cases h
    unfold pPath at hp
    obtain ⟨_, s1, h1, hp⟩ := bind_ok_inv hp
    obtain ⟨r1, hr1, rfl⟩ := expectP_inv (.inl rfl) h1
    obtain ⟨ts, r2, r3, q, ht, hg, rfl, he⟩ := pSteps_sound _ [] (.inl rfl) hp
    exact ⟨_, r2, r3, .cons hr1 ht, ⟨ts, by simpa using hg, rfl⟩, he⟩
  | err e => rw [hp] at h; cases h
  | panic m => rw [hp] at h; cases h
  | stuck => rw [hp] at h; cases h

theorem parseScript_sound {text : Bytes} {e : Expr} (h : parseScriptExpression env text = .ok e) :
    ∃ ts r1 r2, Lexes env ⟨[], text⟩ ts r1 ∧ GExpr env.reValid 0 ts e ∧ lexExpr env r1 = some (.plain .eof, r2) := by
  unfold parseScriptExpression at h
  dsimp only at h
  split at h
  · next e' s' hp =>
    cases h
    obtain ⟨e1, s1, h1, hp⟩ := bind_ok_inv hp
    obtain ⟨ts, r1, ht, hg, hO, _⟩ := pExpr_sound _ 0 (.inl rfl) h1
    obtain ⟨lx, r2, hl⟩ := lexExpr_some env r1
    rw [bind_ok (lexExprP_atO hO hl), bind_ok (m := P.offset) rfl] at hp
    by_cases hc : (opLexeme lx).tok = .eof
    · rw [if_neg (by simpa using hc)] at hp
      obtain ⟨rfl, rfl⟩ := pure_ok_inv hp
      have := (opLexeme_eof (lexExpr_shape hl)).1 hc
      simp only at this
      subst this
      exact ⟨ts, r1, r2, ht, hg, hl⟩
    · rw [if_pos hc] at hp; cases hp
  · cases h
  · cases h
  · cases h

end JP
