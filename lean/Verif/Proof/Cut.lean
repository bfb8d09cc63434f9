import Verif.Proof.JoinPath
/-! Texts of paths cut between steps. -/
namespace JP
open Spec
variable {env : Env}

theorem stops_cut {P : UInt8 → Prop} {a b : Bytes} (h : Spec.Stops P (a ++ b)) : Spec.Stops P a := by
  intro c hc
  apply h c
  cases a with
  | nil => cases hc
  | cons => exact hc

theorem pathWord_cut {lx : Lexeme} {w a b : Bytes} (h : PathWord lx w (a ++ b)) : PathWord lx w a := by
  generalize hn : a ++ b = next at h
  cases h with
  | punct c _ h => exact .punct _ _ h
  | dot _ h => subst hn; exact .dot _ (stops_cut h)
  | nest => exact .nest _
  | filter => exact .filter _
  | str _ _ _ h => exact .str _ _ _ h
  | int _ _ h1 h2 h3 => subst hn; exact .int _ _ h1 (stops_cut h2) h3
  | neg _ _ _ h0 h1 h2 h3 => subst hn; exact .neg _ _ _ h0 h1 (stops_cut h2) h3
  | name _ _ _ h1 h2 h3 => subst hn; exact .name _ _ _ h1 h2 (stops_cut h3)

theorem exprWord_cut {pf : Bytes → Option F64} {lx : Lexeme} {w a b : Bytes} (h : ExprWord pf lx w (a ++ b)) : ExprWord pf lx w a := by
  generalize hn : a ++ b = next at h
  cases h with
  | punct c _ h => exact .punct _ _ h
  | and => exact .and _
  | or => exact .or _
  | le => exact .le _
  | ge => exact .ge _
  | eq => exact .eq _
  | ne => exact .ne _
  | match_ => exact .match_ _
  | alone _ _ _ h1 h2 => subst hn; exact .alone _ _ _ h1 (stops_cut h2)
  | str _ _ _ h => exact .str _ _ _ h
  | int _ _ h1 h2 h3 => subst hn; exact .int _ _ h1 (stops_cut h2) h3
  | real _ _ _ h1 h2 =>
    refine .real _ _ _ ?_ h2
    cases h1 with
    | mk ds fs ex _ h1 h2' h3 h4 h5 => subst hn; exact .mk _ _ _ _ h1 h2' h3 (stops_cut h4) fun e => stops_cut (h5 e)
  | name _ _ _ h1 h2 h3 => subst hn; exact .name _ _ _ h1 h2 (stops_cut h3)

theorem word_cut {pf : Bytes → Option F64} {t : Token} {w a b : Bytes} (h : Word pf t w (a ++ b)) : Word pf t w a := by
  generalize hn : a ++ b = next at h
  cases h with
  | path _ _ _ h => subst hn; exact .path _ _ _ (pathWord_cut h)
  | expr _ _ _ h => subst hn; exact .expr _ _ _ (exprWord_cut h)
  | regexp _ _ _ h => exact .regexp _ _ _ h

/-- The text of some tokens and others is the text of the ones and that of the others. -/
theorem written_cut {pf : Bytes → Option F64} : ∀ (ts us : List Token) {text : Bytes}, Written pf (ts ++ us) text →
    ∃ a r, text = a ++ r ∧ Written pf ts a ∧ Written pf us r
  | [], us, text, h => ⟨[], text, rfl, .nil _ White.nil, h⟩
  | t :: ts, us, text, h => by
    rw [List.cons_append] at h
    cases h with
    | cons _ _ g w next h1 h2 h3 =>
      obtain ⟨a, r, rfl, h4, h5⟩ := written_cut ts us h3
      exact ⟨g ++ (w ++ a), r, by simp, .cons _ _ _ _ _ h1 (word_cut h2) h4, h5⟩

theorem gsteps_cut {valid : Bytes → Bool} : ∀ (p q : Path) {ts : List Token}, GSteps valid ts (p ++ q) →
    ∃ us vs, ts = us ++ vs ∧ GSteps valid us p ∧ GSteps valid vs q
  | [], q, ts, h => ⟨[], ts, rfl, .nil, h⟩
  | s :: p, q, ts, h => by
    rw [List.cons_append] at h
    cases h with
    | cons ts _ ws _ h1 h2 =>
      obtain ⟨us, vs, rfl, h3, h4⟩ := gsteps_cut p q h2
      exact ⟨ts ++ us, vs, by simp, .cons _ _ _ _ h1 h3, h4⟩

theorem parsePath_cut {text : Bytes} {p q : Path} (h : parsePath env text = .ok (p ++ q)) :
    ∃ a r, text = a ++ r ∧ parsePath env a = .ok p ∧ parsePath env (c! '$' :: r) = .ok q := by
  obtain ⟨ts, w, us, g, rfl⟩ := parsePath_iff.1 h
  obtain ⟨us, vs, rfl, g1, g2⟩ := gsteps_cut p q g
  rw [← List.cons_append] at w
  obtain ⟨a, r, rfl, w1, w2⟩ := written_cut _ _ w
  refine ⟨a, r, rfl, parsePath_iff.2 ⟨_, w1, us, g1, rfl⟩, parsePath_iff.2 ⟨_, ?_, vs, g2, rfl⟩⟩
  exact .cons (.p (c! '$')) vs [] [c! '$'] r White.nil (.path _ _ _ (.punct _ _ (by decide))) w2

end JP
