import Verif.Proof.Shuffle
import Verif.Props.RfcText
/-!
C99: the order of the elements of arrays.
-/
namespace JP
open Spec

variable (env : Env)

/-- A path of names and `*`, with or without `..`, selects the same values from documents that differ in the order of the elements of their
arrays only.  The values come in another order, and their own arrays may be in another order. -/
theorem C99_shuffled (oracle oracle' : Oracle) (hv : oracle.Valid) (hv' : oracle'.Valid) (q : Rfc.Query) (text : Bytes) (hq : q.Valid)
    (ht : Rfc.WrittenQuery q text) (hl : text.length ≤ 3 * 2 ^ 20) (hlone : ∀ seg ∈ q, seg.Lone) (hn : NoCounting q)
    (root root' : V) (hr : root.WF) (hr' : root'.WF) (h : Shuffled root root') :
    ∃ p res res', Compile env text = .ok p ∧ Eval env oracle p root = some (.ok (some res)) ∧ Eval env oracle' p root' = some (.ok (some res')) ∧
      SameBag res res' := by
  have hd : ∀ root, Rfc.NoDigits root q := by
    intro root seg hs i hi
    rcases hn seg hs _ hi with ⟨n, h⟩ | h <;> cases h
  have hs : ∀ root, Rfc.SlicesOnArrays root q := by
    rintro root q1 seg q2 rfl ⟨a, b, c, hm⟩
    rcases hn seg (by simp) _ hm with ⟨n, h⟩ | h <;> cases h
  obtain ⟨p, res, h1, h2, h3, _⟩ := C98_query_partial env oracle hv q text hq ht hl hlone root hr (hd root) (hs root)
  obtain ⟨p', res', h1', h2', h3', _⟩ := C98_query_partial env oracle' hv' q text hq ht hl hlone root' hr' (hd root') (hs root')
  rw [h1] at h1'
  cases h1'
  exact ⟨p, res, res', h1, h2, h2', gives_shuffled h hr hr' h3 hn h3'⟩

/-- As many values are selected. -/
theorem C99_count (l l' : List V) (h : SameBag l l') : l.length = l'.length := by
  obtain ⟨m, h1, h2⟩ := h
  rw [← h2.length_eq]
  clear h2
  induction h1 with
  | nil => rfl
  | cons _ _ ih => simp [ih]

/-- Values that are no structures are selected unchanged, and as often. -/
theorem C99_atoms (l l' : List V) (h : SameBag l l') : (l.filter fun v => !isStructure v).Perm (l'.filter fun v => !isStructure v) := by
  obtain ⟨m, h1, h2⟩ := h
  refine .trans ?_ (h2.filter _)
  clear h2
  induction h1 with
  | nil => exact .refl _
  | cons h _ ih =>
    have hk := shuffled_kind h
    rw [List.filter_cons, List.filter_cons, hk]
    split
    · next hs =>
      cases h with
      | same => exact ih.cons _
      | arr => simp [isStructure] at hs
      | obj => simp [isStructure] at hs
    · exact ih

/-- `$..*` of `[[1, 2], 3]` and `[3, [2, 1]]`. -/
example := C99_shuffled Ex.env Oracle.id Oracle.id Ex.valid Ex.valid [.descend [.wild]] (b! "$..*")
  (by intro seg hs; rw [List.mem_singleton.1 hs]; simp [Rfc.Segment.sels, Rfc.Selector.Valid])
  ⟨b! "..*", .cons (g := []) (w := b! "..*") (by simp [Rfc.Blanks]) .dotsWild .nil, rfl⟩ (by decide)
  (by intro seg hs; rw [List.mem_singleton.1 hs]; simp [Rfc.Segment.Lone, Rfc.Segment.sels])
  (by intro seg hs s hm; rw [List.mem_singleton.1 hs] at hm; exact .inr (List.mem_singleton.1 hm))
  (.arr [.arr [.int 1, .int 2], .int 3]) (.arr [.int 3, .arr [.int 2, .int 1]]) (by simp [V.WF, WFs]) (by simp [V.WF, WFs])
  (.arr (zs := [.arr [.int 2, .int 1], .int 3]) (.cons (.arr (zs := [.int 1, .int 2]) (.cons (.same _) (.cons (.same _) .nil)) (.swap _ _ _)) (.cons (.same _) .nil))
    (.swap _ _ _))

example : ∃ l l', SameBag l l' ∧ l ≠ l' := ⟨[.int 1, .int 2], [.int 2, .int 1], ⟨[.int 1, .int 2], .cons (.same _) (.cons (.same _) .nil), .swap _ _ _⟩, by simp⟩

/-- A path that counts elements selects other values: `$[0]` of `[true, null]` and `[null, true]`. -/
theorem C99_counting : ∃ p, Compile env (b! "$[0]") = .ok p ∧ Shuffled (.arr [.bool true, .null]) (.arr [.null, .bool true]) ∧ ∀ oracle,
    Eval env oracle p (.arr [.bool true, .null]) = some (.ok (some [.bool true])) ∧
    Eval env oracle p (.arr [.null, .bool true]) = some (.ok (some [.null])) ∧ ¬ SameBag [.bool true] [.null] := by
  refine ⟨_, rfl, .arr (zs := [.bool true, .null]) (.cons (.same _) (.cons (.same _) .nil)) (.swap _ _ _), fun oracle =>
    ⟨run_of_runFuel 10 _ rfl, run_of_runFuel 10 _ rfl, fun h => ?_⟩⟩
  have := C99_atoms _ _ h
  have := List.perm_singleton.1 this
  cases this

end JP
