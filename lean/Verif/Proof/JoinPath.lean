import Verif.Proof.Layout
import Verif.Proof.Print
import Verif.Proof.Locate
import Verif.Proof.Compose
/-! Lemmas about texts of paths joined together. -/
namespace JP
open Spec
variable {env : Env}

theorem written_nil {us : List Token} (h : Written env.parseFloat us []) (g : GSteps env.reValid us p) : us = [] := by
  cases g with
  | nil => rfl
  | cons ts s vs p g1 g2 =>
    exfalso
    obtain ⟨lx, us, rfl, _⟩ := GStep_first g1
    generalize hx : ([] : Bytes) = x at h
    cases h with
    | cons t ts g w next h1 h2 h3 =>
      have hw : w = [] := by
        have := List.append_eq_nil_iff.1 hx.symm
        exact (List.append_eq_nil_iff.1 this.2).1
      subst hw
      cases h2 with
      | path _ _ _ h2 =>
        generalize hy : ([] : Bytes) = y at h2
        cases h2 <;> try (cases hy)
        · next h => cases h
        · next h _ _ => exact h.1 rfl

/-- What the text of steps begins with. -/
theorem written_first {us : List Token} {c : UInt8} {r : Bytes} (h : Written env.parseFloat us (c :: r)) (g : GSteps env.reValid us p) :
    Space c ∨ c = c! '.' ∨ c = c! '[' := by
  have head : ∀ {lx : Lexeme} {ts : List Token}, Written env.parseFloat (.path lx :: ts) (c :: r) →
      lx = .plain (.ch (c! '.')) ∨ lx = .plain .nest ∨ lx = .plain (.ch (c! '[')) → Space c ∨ c = c! '.' ∨ c = c! '[' := by
    intro lx ts h hl
    generalize hx : c :: r = x at h
    cases h with
    | cons t ts g w next h1 h2 h3 =>
      cases g with
      | cons d g =>
        cases hx
        exact .inl (h1 c (by simp))
      | nil =>
        cases h2 with
        | path _ _ _ h2 =>
          rcases hl with rfl | rfl | rfl
          · generalize hy : Lexeme.plain (.ch (c! '.')) = y at h2
            cases h2 <;> cases hy
            · cases hx; exact .inr (.inl rfl)
            · cases hx; exact .inr (.inl rfl)
          · generalize hy : Lexeme.plain .nest = y at h2
            cases h2 <;> cases hy
            cases hx; exact .inr (.inl rfl)
          · generalize hy : Lexeme.plain (.ch (c! '[')) = y at h2
            cases h2 <;> cases hy
            cases hx; exact .inr (.inr rfl)
  cases g with
  | nil =>
    generalize hx : c :: r = x at h
    cases h with
    | nil g hg => subst hx; exact .inl (hg c (by simp))
  | cons ts s vs p g1 g2 =>
    cases g1 with
    | member ts m _ => exact head h (.inl rfl)
    | nestMember ts m _ => exact head h (.inr (.inl rfl))
    | sub ts k _ => exact head h (.inr (.inr rfl))
    | nestSub ts k _ => exact head h (.inr (.inl rfl))

theorem parsePath_join {a r : Bytes} {p q : Path} (ha : parsePath env a = .ok p) (hr : parsePath env (c! '$' :: r) = .ok q) :
    parsePath env (a ++ r) = .ok (p ++ q) := by
  obtain ⟨ts, w, g⟩ := parsePath_iff.1 ha
  obtain ⟨vs, w', us', g', rfl⟩ := parsePath_iff.1 hr
  have w2 : Written env.parseFloat us' r := (w'.path_inv (g := []) (w := [c! '$']) (next := r) White.nil (.punct _ _ (by decide))).2
  have hlast := g.lastTok
  obtain ⟨us, g, rfl⟩ := g
  have ho : Outside us' := by
    cases g' with
    | nil => intro t ht; cases ht
    | cons _ _ _ _ g1 _ => obtain ⟨lx, us, rfl, _⟩ := GStep_first g1; exact outside_path _ _
  refine parsePath_iff.2 ⟨(.p (c! '$') :: us) ++ us', ?_, us ++ us', GSteps_append g g', rfl⟩
  cases r with
  | nil =>
    rw [written_nil w2 g', List.append_nil, List.append_nil]
    exact w
  | cons c r =>
    by_cases hc : c = c! '.'
    · subst hc; exact w.join_dot w2 ho hlast
    · refine w.join w2 ?_ ho
      rcases written_first w2 g' with h | h | rfl
      · exact neutral_space h
      · exact absurd h hc
      · exact neutral_of (by decide)

/-- Steps of names and integers choose no order. -/
theorem evalSteps_single' {oracle : Oracle} {root : V} {q : Path} {fs : List (V → List V)} (h : All2 Single q fs) :
    ∀ (out : GoSlice) (t : Nat), (∀ v ∈ out.elems, v.WF) →
    ∃ out', evalSteps env oracle root q out t = .ok (out', t) ∧ out'.elems = out.elems.flatMap (follow fs) := by
  induction h with
  | nil => intro out t _; exact ⟨out, rfl, by simp [follow]⟩
  | @cons s f _ fs h _ ih =>
    intro out t hw
    obtain ⟨o, h1, h2⟩ := evalStep_single (env := env) (oracle := oracle) (root := root) h out t hw
    obtain ⟨o2, h3, h4⟩ := ih o t (by
      intro v hv
      rw [h2] at hv
      obtain ⟨x, hx, hv⟩ := List.mem_flatMap.1 hv
      exact (h.child hv).wf (hw x hx))
    refine ⟨o2, ?_, ?_⟩
    · unfold evalSteps
      rw [h1]
      exact h3
    · rw [h4, h2, List.flatMap_assoc]
      rfl

end JP
