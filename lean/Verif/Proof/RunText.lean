import Verif.Model.RunText
import Verif.Spec.RunText
import Verif.Proof.Keys
import Verif.Proof.Quote
/-! The messages of the errors of `Eval`. -/
namespace JP
open Spec

theorem Spec.Within.trans {a b c : Bytes} (h1 : Within a b) (h2 : Within b c) : Within a c := by
  obtain ⟨l, r, rfl⟩ := h1
  obtain ⟨l', r', rfl⟩ := h2
  exact ⟨l' ++ l, r ++ r', by simp⟩

theorem within_spaced {t : Bytes} : ∀ {ts : List Bytes}, t ∈ ts → Within t (spaced ts)
  | [u], h => by
    simp only [List.mem_singleton] at h
    subst h
    exact ⟨[], [], by simp [spaced]⟩
  | u :: w :: ts, h => by
    rw [spaced]
    · rcases List.mem_cons.1 h with rfl | h
      · exact ⟨[], _, by rw [List.nil_append]⟩
      · obtain ⟨l, r, h⟩ := within_spaced h
        exact ⟨u ++ c! ' ' :: l, r, by rw [h]; simp⟩
    · simp

theorem sformatElems_eq (env : Env) : ∀ xs : List V, sformatElems env xs = xs.map (sformatIn env)
  | [] => rfl
  | x :: xs => by rw [sformatElems, sformatElems_eq env xs]; rfl

theorem sformatMembers_eq (env : Env) : ∀ kvs : List (Bytes × V), sformatMembers env kvs = kvs.map fun p => (p.1, sformatIn env p.2)
  | [] => rfl
  | (k, x) :: kvs => by rw [sformatMembers, sformatMembers_eq env kvs]; rfl

theorem within_badVerb (type text : Bytes) : Within (b! "%!s(") (badVerb type text) := ⟨[], type ++ c! '=' :: (text ++ [c! ')']), by simp [badVerb]⟩

mutual
theorem sformatIn_number (env : Env) : ∀ {v : V}, HasNumber v → Within (b! "%!s(") (sformatIn env v)
  | _, .bool _ => within_badVerb _ _
  | _, .gint _ => within_badVerb _ _
  | _, .int _ => within_badVerb _ _
  | _, .float _ => within_badVerb _ _
  | _, .arr xs h => by
    obtain ⟨x, hx, h⟩ := sformatElems_number env h
    refine h.trans (.trans (within_spaced (ts := sformatElems env xs) ?_) ⟨[c! '['], [c! ']'], rfl⟩)
    rw [sformatElems_eq]
    exact List.mem_map.2 ⟨x, hx, rfl⟩
  | _, .obj kvs h => by
    obtain ⟨x, hx, h⟩ := sformatElems_number env h
    obtain ⟨⟨k, x⟩, hp, rfl⟩ := List.mem_map.1 hx
    refine h.trans (.trans (b := k ++ c! ':' :: sformatIn env x) ⟨k ++ [c! ':'], [], by simp⟩ (.trans
      (within_spaced (ts := (sortKeys (sformatMembers env kvs)).map fun (k, t) => k ++ c! ':' :: t) ?_) ⟨b! "map[", [c! ']'], by rw [sformatIn, List.append_assoc]⟩))
    refine List.mem_map.2 ⟨(k, sformatIn env x), (sortKeys_perm _).mem_iff.2 ?_, rfl⟩
    rw [sformatMembers_eq]
    exact List.mem_map.2 ⟨(k, x), hp, rfl⟩
theorem sformatElems_number (env : Env) : ∀ {xs : List V}, HasNumbers xs → ∃ x ∈ xs, Within (b! "%!s(") (sformatIn env x)
  | _, .head x xs h => ⟨x, by simp, sformatIn_number env h⟩
  | _, .tail x xs h => by
    obtain ⟨y, hy, h⟩ := sformatElems_number env h
    exact ⟨y, by simp [hy], h⟩
end

theorem not_hasNumbers {xs : List V} (h : ¬ HasNumbers xs) : ∀ x ∈ xs, ¬ HasNumber x := by
  induction xs with
  | nil => intro x hx; cases hx
  | cons y ys ih =>
    intro x hx hn
    rcases List.mem_cons.1 hx with rfl | hx
    · exact h (.head _ _ hn)
    · exact ih (fun h' => h (.tail _ _ h')) x hx hn

mutual
/-- Otherwise the texts are those of `fmt.Sprint`. -/
theorem sformatIn_plain (env : Env) : ∀ {v : V}, ¬ HasNumber v → sformatIn env v = sprint env v
  | .bool _, h => absurd (.bool _) h
  | .gint _, h => absurd (.gint _) h
  | .int _, h => absurd (.int _) h
  | .float _, h => absurd (.float _) h
  | .arr xs, h => by
    rw [sformatIn, sprint, sformatElems_plain env fun x hx => not_hasNumbers (fun h' => h (.arr _ h')) x hx]
  | .obj kvs, h => by
    rw [sformatIn, sprint, sformatMembers_plain env fun p hp =>
      not_hasNumbers (fun h' => h (.obj _ h')) p.2 (List.mem_map.2 ⟨p, hp, rfl⟩)]
  | .null, _ => rfl
  | .str _, _ => rfl
  | .num _, _ => rfl
  | .name _, _ => rfl
  | .re _, _ => rfl
  | .slice _, _ => rfl
  | .err _, _ => rfl
theorem sformatElems_plain (env : Env) : ∀ {xs : List V}, (∀ x ∈ xs, ¬ HasNumber x) → sformatElems env xs = sprints env xs
  | [], _ => rfl
  | x :: xs, h => by
    rw [sformatElems, sprints, sformatIn_plain env (h x (by simp)), sformatElems_plain env fun y hy => h y (by simp [hy])]
theorem sformatMembers_plain (env : Env) : ∀ {kvs : List (Bytes × V)}, (∀ p ∈ kvs, ¬ HasNumber p.2) →
    sformatMembers env kvs = sprintMembers env kvs
  | [], _ => rfl
  | (k, x) :: kvs, h => by
    rw [sformatMembers, sprintMembers, sformatIn_plain env (h (k, x) (by simp)), sformatMembers_plain env fun y hy => h y (by simp [hy])]
end

/-! ### Go syntax -/

theorem gosyntax_simple (env : Env) {v : V} {t : Bytes} (ht : GoText v t) (h : v = .null ∨ HasNumber v) (ha : ∀ xs, v ≠ .arr xs)
    (ho : ∀ kvs, v ≠ .obj kvs) : gosyntax env v = t := by
  rw [← goText_sprint env ht]
  rcases h with rfl | h
  · rfl
  · cases h <;> first | rfl | exact absurd rfl (ha _) | exact absurd rfl (ho _)

theorem gosyntaxElems_eq (env : Env) : ∀ xs : List V, gosyntaxElems env xs = xs.map (gosyntaxIn env)
  | [] => rfl
  | x :: xs => by rw [gosyntaxElems, gosyntaxElems_eq env xs]; rfl

theorem gosyntaxMembers_eq (env : Env) : ∀ kvs : List (Bytes × V), gosyntaxMembers env kvs = kvs.map fun p => (p.1, gosyntaxIn env p.2)
  | [] => rfl
  | (k, x) :: kvs => by rw [gosyntaxMembers, gosyntaxMembers_eq env kvs]; rfl

theorem commas_separated : ∀ ts : List Bytes, commas ts = separated ts
  | [] => rfl
  | [t] => rfl
  | t :: u :: ts => by
    rw [commas, separated, commas_separated (u :: ts)] <;> simp

theorem goExprs_of (env : Env) : ∀ {xs : List V}, (∀ x ∈ xs, GoExpr x (gosyntaxIn env x)) → GoExprs xs (xs.map (gosyntaxIn env))
  | [], _ => .nil
  | x :: xs, h => .cons _ _ _ _ (h x (by simp)) (goExprs_of env fun y hy => h y (by simp [hy]))

theorem pairTexts_map (env : Env) : ∀ l : List (Bytes × V), pairTexts (l.map fun p => goQuote env p.1) (l.map fun p => gosyntaxIn env p.2) =
    l.map fun p => goQuote env p.1 ++ c! ':' :: gosyntaxIn env p.2
  | [] => rfl
  | p :: l => by
    have := pairTexts_map env l
    simp only [List.map_cons, pairTexts, this]
    simp

/-- What `%#v` writes for empty arrays and objects, nil or not. -/
def OpaqueOk (env : Env) : Prop := GoExpr (.arr []) (env.goOpaque (.arr [])) ∧ GoExpr (.obj []) (env.goOpaque (.obj []))

mutual
/-- `%#v` writes an expression of Go. -/
theorem gosyntaxIn_expr (env : Env) (he : OpaqueOk env) : ∀ {v : V}, v.WF → GoExpr v (gosyntaxIn env v)
  | .null, _ => .null
  | .bool true, _ => .true
  | .bool false, _ => .false
  | .gint n, _ => .gint n _ (integerText_intToBytes _)
  | .int n, _ => .int n _ (integerText_intToBytes _)
  | .float x, _ => .float x _ (format_goNumber x)
  | .str s, _ => .str s _ (goQuote_spec env s)
  | .num s, _ => .num s _ (goQuote_spec env s)
  | .arr [], _ => he.1
  | .obj [], _ => he.2
  | .arr (x :: xs), h => by
    have := GoExpr.arr (x :: xs) _ (goExprs_of env (fun y hy => gosyntaxElems_expr env he h.2 y hy))
    rw [gosyntaxIn, gosyntaxElems_eq, commas_separated, ← List.append_assoc]
    exact this
  | .obj (p :: kvs), h => by
    have hm := fun q hq => gosyntaxMembers_expr env he h.2.2 q hq
    obtain ⟨sorted, h1, h2⟩ := perm_of_map (f := fun p : Bytes × V => (p.1, gosyntaxIn env p.2))
      (sortKeys_perm ((p :: kvs).map fun p => (p.1, gosyntaxIn env p.2)))
    have hs : sorted.Pairwise (fun a b => a.1 < b.1) := by
      have := sortKeys_sorted ((p :: kvs).map fun p => (p.1, gosyntaxIn env p.2)) (by rw [List.map_map]; exact h.2.1)
      rw [← h2] at this
      rw [List.pairwise_map] at this
      exact this
    have hk : List.Forall₂ GoLiteral (sorted.map fun p => goQuote env p.1) (sorted.map Prod.fst) := by
      clear h1 h2 hs
      induction sorted with
      | nil => exact .nil
      | cons q l ih => exact .cons (goQuote_spec env _) ih
    have := GoExpr.obj (p :: kvs) sorted _ _ h1 hs hk (goExprs_of env (by
      intro x hx
      obtain ⟨p, hp, rfl⟩ := List.mem_map.1 hx
      exact hm p (h1.mem_iff.1 hp)))
    rw [List.map_map] at this
    rw [show (gosyntaxIn env ∘ Prod.snd) = fun p : Bytes × V => gosyntaxIn env p.2 from rfl, pairTexts_map] at this
    rw [gosyntaxIn, ← gosyntaxMembers, gosyntaxMembers_eq, ← h2, List.map_map, commas_separated, ← List.append_assoc]
    exact this
theorem gosyntaxElems_expr (env : Env) (he : OpaqueOk env) : ∀ {xs : List V}, WFs xs → ∀ x ∈ xs, GoExpr x (gosyntaxIn env x)
  | [], _, _, h => by cases h
  | v :: vs, hw, x, h => by
    rcases List.mem_cons.1 h with e | h
    · rw [e]; exact gosyntaxIn_expr env he hw.1
    · exact gosyntaxElems_expr env he hw.2 x h
theorem gosyntaxMembers_expr (env : Env) (he : OpaqueOk env) : ∀ {kvs : List (Bytes × V)}, WFm kvs → ∀ p ∈ kvs, GoExpr p.2 (gosyntaxIn env p.2)
  | [], _, _, h => by cases h
  | (k, v) :: kvs, hw, p, h => by
    rcases List.mem_cons.1 h with e | h
    · rw [e]; exact gosyntaxIn_expr env he hw.1
    · exact gosyntaxMembers_expr env he hw.2 p h
end

/-! Expressions are longer than texts. -/

theorem GoUnit.length {a v : Bytes} (h : GoUnit a v) : v.length ≤ a.length := by
  cases h with
  | char => exact le_rfl
  | letter => simp
  | octal => simp
  | byte => simp
  | short t n _ h => 
    have : (utf8 n).length ≤ 4 := by
      unfold utf8
      rw [String.length_utf8EncodeChar]
      exact Char.utf8Size_le_four _
    simp; omega
  | long t n _ h => 
    have : (utf8 n).length ≤ 4 := by
      unfold utf8
      rw [String.length_utf8EncodeChar]
      exact Char.utf8Size_le_four _
    simp; omega

theorem GoBody.length {t s : Bytes} (h : GoBody t s) : s.length ≤ t.length := by
  induction h with
  | nil => exact le_rfl
  | cons a v t w h _ ih => have := GoUnit.length h; simp; omega

theorem GoLiteral.length {t s : Bytes} (h : GoLiteral t s) : s.length + 2 ≤ t.length := by
  cases h with
  | raw rs _ =>
    have : ((rs.filter (· ≠ 13)).flatMap utf8).length ≤ (rs.flatMap utf8).length := by
      clear * -
      induction rs with
      | nil => exact le_rfl
      | cons r rs ih =>
        rw [List.filter_cons]
        split
        · simp only [List.flatMap_cons, List.length_append]; omega
        · simp only [List.flatMap_cons, List.length_append]; omega
    simp only [List.length_cons, List.length_append, List.length_nil]
    omega
  | interpreted t v h =>
    have := GoBody.length h
    simp only [List.length_cons, List.length_append, List.length_nil]
    omega

theorem blanks_le_separated : ∀ {ts es : List Bytes}, List.Forall₂ (fun t e => t.length ≤ e.length) ts es → (blanks ts).length ≤ (separated es).length
  | _, _, .nil => le_rfl
  | _, _, .cons h .nil => h
  | _, _, .cons h (.cons h' hs) => by
    have := blanks_le_separated (.cons h' hs)
    rw [blanks, separated] <;> simp at * <;> omega

theorem sorted_unique {l l' : List (Bytes × V)} (hp : l.Perm l') (h : l.Pairwise (fun a b => a.1 < b.1))
    (h' : l'.Pairwise (fun a b => a.1 < b.1)) : l = l' :=
  hp.eq_of_pairwise (fun a b _ _ h1 h2 => absurd (List.lt_trans h1 h2) (List.lt_irrefl _)) h h'

theorem members_le : ∀ {l : List (Bytes × V)} {ks ts es : List Bytes}, List.Forall₂ GoLiteral ks (l.map Prod.fst) →
    List.Forall₂ (fun t e => t.length ≤ e.length) ts es → 
    List.Forall₂ (fun t e => t.length ≤ e.length) (memberTexts l ts) (pairTexts ks es)
  | [], _, _, _, .nil, _ => by simp [memberTexts, pairTexts]
  | p :: l, _, _, _, .cons _ _, .nil => by simp [memberTexts, pairTexts]
  | p :: l, _, _, _, .cons hk hks, .cons ht hts => by
    refine .cons ?_ (members_le hks hts)
    have := GoLiteral.length hk
    simp
    omega

mutual
theorem goText_le_expr (env : Env) : ∀ {v : V} {t e : Bytes}, GoText v t → GoExpr v e → t.length ≤ e.length
  | _, _, _, .null, .null => by decide
  | _, _, _, .true, .true => le_rfl
  | _, _, _, .false, .false => le_rfl
  | _, _, _, .gint n t h, .gint _ e h' => by
    rw [← goText_sprint env (.gint n t h), goText_sprint env (.gint n e h')]
  | _, _, _, .int n t h, .int _ e h' => by
    rw [← goText_sprint env (.int n t h), goText_sprint env (.int n e h')]
  | _, _, _, .float n t h, .float _ e h' => by
    rw [← goText_sprint env (.float n t h), goText_sprint env (.float n e h')]
  | _, _, _, .str s, .str _ e h => by have := GoLiteral.length h; omega
  | _, _, _, .num s, .num _ e h => by have := GoLiteral.length h; omega
  | _, _, _, .arr _ ts h, .nilSlice => by cases h; decide
  | _, _, _, .arr xs ts h, .arr _ es h' => by
    have := blanks_le_separated (goTexts_le_exprs env h h')
    simp; omega
  | _, _, _, .obj _ l ts h _ _, .nilMap => by
    obtain rfl := h.eq_nil
    simp [memberTexts, blanks]
  | _, _, _, .obj kvs l ts h1 h2 h3, .obj _ l' ks es h1' h2' h3' h4' => by
    obtain rfl := sorted_unique (h1.trans h1'.symm) h2 h2'
    have := blanks_le_separated (members_le h3' (goTexts_le_exprs env h3 h4'))
    simp; omega
theorem goTexts_le_exprs (env : Env) : ∀ {xs : List V} {ts es : List Bytes}, GoTexts xs ts → GoExprs xs es → List.Forall₂ (fun t e => t.length ≤ e.length) ts es
  | _, _, _, .nil, .nil => .nil
  | _, _, _, .cons _ _ _ _ h hs, .cons _ _ _ _ h' hs' => .cons (goText_le_expr env h h') (goTexts_le_exprs env hs hs')
end

theorem goText_lt_expr (env : Env) {v : V} {t e : Bytes} (ht : GoText v t) (he : GoExpr v e) (h : (∃ xs, v = .arr xs) ∨ ∃ kvs, v = .obj kvs) :
    t.length < e.length := by
  rcases h with ⟨xs, rfl⟩ | ⟨kvs, rfl⟩
  · cases ht with
    | arr xs ts h =>
    cases he with
    | nilSlice => cases h; decide
    | arr _ es h' =>
      have := blanks_le_separated (goTexts_le_exprs env h h')
      simp; omega
  · cases ht with
    | obj kvs l ts h1 h2 h3 =>
    cases he with
    | nilMap => obtain rfl := h1.eq_nil; simp [memberTexts, blanks]
    | obj _ l' ks es h1' h2' h3' h4' =>
      obtain rfl := sorted_unique (h1.trans h1'.symm) h2 h2'
      have := blanks_le_separated (members_le h3' (goTexts_le_exprs env h3 h4'))
      simp; omega

end JP
