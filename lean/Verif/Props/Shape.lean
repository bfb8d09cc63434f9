import Verif.Proof.Shape
import Verif.Props.Ex
import Verif.Proof.KRfl
/-!
Selection by shape: C77.

The programs have fewer than 2^22 orders (part of `IsCompiled`), as all those of texts of at most 3 MB (C87).
-/
namespace JP
open Spec

variable (env : Env) (oracle : Oracle)

/-! ### C77 Paths without filters select by shape -/

/-- On documents of the same shape such a path selects values at the same places: whatever the relation between the
scalars of the two documents, it is also that between the scalars of the results, one by one. -/
theorem C77_results (p : JSONPath) (q : Path) (h : IsCompiled env p q) (hb : Blind q) (R : V → V → Prop) (d d' : V)
    (hd : SameShape R d d') (vs : List V) (he : Eval env oracle p d = some (.ok (some vs))) :
    ∃ vs', Eval env oracle p d' = some (.ok (some vs')) ∧ List.Forall₂ (SameShape R) vs vs' := by
  rw [h.eval] at he ⊢
  simp only [Option.some.injEq] at he
  have hr := evalPath_shape env oracle hd q hb
  rw [he] at hr
  generalize evalPath env oracle d' q = y at hr
  cases hr with
  | ok hr => cases hr with | some hr => exact ⟨_, rfl, hr⟩

/-- `$..a[(2-1)]` on `{"a": [1, true]}` and `{"a": [null, "x"]}`. -/
example := C77_results Ex.env Oracle.id _
  [⟨.nestMember, [.name (b! "a")]⟩, ⟨.select, [.expr (.inner .sub [.int 2, .int 1])]⟩] ⟨⟨b! "$..a[(2-1)]", rfl, rfl⟩, by decide⟩
  (by
    intro s hs
    simp only [List.mem_cons, List.not_mem_nil, or_false] at hs
    rcases hs with rfl | rfl
    · exact ⟨by decide, by decide, by simp⟩
    · refine ⟨by decide, by decide, ?_⟩
      intro e he
      simp only [List.mem_cons, List.not_mem_nil, or_false, Val.expr.injEq] at he
      subst he
      rfl) (fun a b => (a = .int 1 ∧ b = .null) ∨ (a = .bool true ∧ b = .str (b! "x")))
  (.obj [(b! "a", .arr [.int 1, .bool true])]) (.obj [(b! "a", .arr [.null, .str (b! "x")])])
  (.obj rfl (.cons (.arr (.cons (.scalar trivial trivial (.inl ⟨rfl, rfl⟩)) (.cons (.scalar trivial trivial (.inr ⟨rfl, rfl⟩)) .nil))) .nil))
  [.bool true] (run_of_runFuel 60 _ (by krfl))

mutual
private theorem shape_map (f : V → V) (hf : ∀ v, Scalar v → Scalar (f v)) : ∀ v : V, SameShape (fun a b => b = f a) v (mapScalars f v)
  | .arr xs => by simp only [mapScalars]; exact .arr (shape_maps f hf xs)
  | .obj ms => by
    simp only [mapScalars]
    have h := shape_mapm f hf ms
    exact .obj h.1 h.2
  | .null => by simp only [mapScalars]; exact .scalar trivial (hf _ trivial) rfl
  | .bool _ => by simp only [mapScalars]; exact .scalar trivial (hf _ trivial) rfl
  | .int _ => by simp only [mapScalars]; exact .scalar trivial (hf _ trivial) rfl
  | .gint _ => by simp only [mapScalars]; exact .scalar trivial (hf _ trivial) rfl
  | .float _ => by simp only [mapScalars]; exact .scalar trivial (hf _ trivial) rfl
  | .str _ => by simp only [mapScalars]; exact .scalar trivial (hf _ trivial) rfl
  | .num _ => by simp only [mapScalars]; exact .scalar trivial (hf _ trivial) rfl
  | .name _ => by simp only [mapScalars]; exact .scalar trivial (hf _ trivial) rfl
  | .re _ => by simp only [mapScalars]; exact .scalar trivial (hf _ trivial) rfl
  | .slice _ => by simp only [mapScalars]; exact .scalar trivial (hf _ trivial) rfl
  | .err _ => by simp only [mapScalars]; exact .scalar trivial (hf _ trivial) rfl
private theorem shape_maps (f : V → V) (hf : ∀ v, Scalar v → Scalar (f v)) : ∀ xs : List V,
    List.Forall₂ (SameShape fun a b => b = f a) xs (mapElements f xs)
  | [] => by simp only [mapElements]; exact .nil
  | x :: xs => by simp only [mapElements]; exact .cons (shape_map f hf x) (shape_maps f hf xs)
private theorem shape_mapm (f : V → V) (hf : ∀ v, Scalar v → Scalar (f v)) : ∀ ms : List (Bytes × V),
    ms.map Prod.fst = (mapMembers f ms).map Prod.fst ∧
    List.Forall₂ (SameShape fun a b => b = f a) (ms.map Prod.snd) ((mapMembers f ms).map Prod.snd)
  | [] => by constructor <;> simp [mapMembers]
  | (k, x) :: ms => by
    simp only [mapMembers, List.map_cons]
    have h := shape_mapm f hf ms
    exact ⟨by rw [h.1], .cons (shape_map f hf x) h.2⟩
end

mutual
private theorem map_shape (f : V → V) : ∀ v w : V, SameShape (fun a b => b = f a) v w → w = mapScalars f v
  | .arr xs, w, h => by
    cases h with
    | scalar h => exact h.elim
    | arr h => simp only [mapScalars]; rw [maps_shape f xs _ h]
  | .obj ms, w, h => by
    cases h with
    | scalar h => exact h.elim
    | obj hk h => simp only [mapScalars]; rw [mapm_shape f ms _ hk h]
  | .null, w, h | .bool _, w, h | .int _, w, h | .gint _, w, h | .float _, w, h | .str _, w, h | .num _, w, h | .name _, w, h | .re _, w, h
  | .slice _, w, h | .err _, w, h => by
    cases h with
    | scalar _ _ h => simp only [mapScalars]; exact h
private theorem maps_shape (f : V → V) : ∀ xs ys : List V, List.Forall₂ (SameShape fun a b => b = f a) xs ys → ys = mapElements f xs
  | [], _, h => by cases h; simp [mapElements]
  | x :: xs, _, h => by
    cases h with
    | cons h hs => simp only [mapElements]; rw [map_shape f x _ h, maps_shape f xs _ hs]
private theorem mapm_shape (f : V → V) : ∀ ms ns : List (Bytes × V), ms.map Prod.fst = ns.map Prod.fst →
    List.Forall₂ (SameShape fun a b => b = f a) (ms.map Prod.snd) (ns.map Prod.snd) → ns = mapMembers f ms
  | [], [], _, _ => by simp [mapMembers]
  | [], _ :: _, h, _ => by cases h
  | _ :: _, [], h, _ => by cases h
  | (k, x) :: ms, (k', y) :: ns, hk, h => by
    simp only [List.map_cons, List.cons.injEq, List.forall₂_cons] at hk h
    simp only [mapMembers]
    rw [map_shape f x _ h.1, mapm_shape f ms _ hk.2 h.2, hk.1]
end

/-- In particular, to replace all scalars in the document is to replace them in the results. -/
theorem C77_replace (p : JSONPath) (q : Path) (h : IsCompiled env p q) (hb : Blind q) (f : V → V) (hf : ∀ v, Scalar v → Scalar (f v))
    (d : V) (vs : List V) (he : Eval env oracle p d = some (.ok (some vs))) :
    Eval env oracle p (mapScalars f d) = some (.ok (some (vs.map (mapScalars f)))) := by
  obtain ⟨vs', h1, h2⟩ := C77_results env oracle p q h hb _ d _ (shape_map f hf d) vs he
  rw [h1]
  have : vs' = vs.map (mapScalars f) := by
    clear h1 he
    induction h2 with
    | nil => rfl
    | cons h _ ih => rw [List.map_cons, map_shape f _ _ h, ih]
  rw [this]

example := C77_replace Ex.env Oracle.id _ [⟨.wild, []⟩] ⟨⟨b! "$.*", rfl, rfl⟩, by decide⟩
  (by intro s hs; simp only [List.mem_cons, List.not_mem_nil, or_false] at hs; subst hs; exact ⟨by decide, by decide, by simp⟩)
  (fun _ => .null) (fun _ _ => trivial) (.arr [.int 1, .arr [.bool true]]) [.int 1, .arr [.bool true]] (run_of_runFuel 40 _ (by krfl))

/-- The errors are the same. -/
theorem C77_errors (p : JSONPath) (q : Path) (h : IsCompiled env p q) (hb : Blind q) (R : V → V → Prop) (d d' : V)
    (hd : SameShape R d d') (e : RErr) (he : Eval env oracle p d = some (.err e)) : Eval env oracle p d' = some (.err e) := by
  rw [h.eval] at he ⊢
  simp only [Option.some.injEq] at he
  have hr := evalPath_shape env oracle hd q hb
  rw [he] at hr
  generalize evalPath env oracle d' q = y at hr
  cases hr
  rfl

/-- `$[(1 in 2)]` fails on all documents. -/
example := C77_errors Ex.env Oracle.id _ [⟨.select, [.expr (.inner .in_ [.int 1, .int 2])]⟩] ⟨⟨b! "$[(1 in 2)]", rfl, rfl⟩, by decide⟩
  (by
    intro s hs
    simp only [List.mem_cons, List.not_mem_nil, or_false] at hs
    subst hs
    refine ⟨by decide, by decide, ?_⟩
    intro e he
    simp only [List.mem_cons, List.not_mem_nil, or_false, Val.expr.injEq] at he
    subst he
    rfl) (fun _ _ => True) (.int 1) .null (.scalar trivial trivial trivial) (.inRight .in_ (.int 2)) (run_of_runFuel 40 _ (by krfl))

end JP
