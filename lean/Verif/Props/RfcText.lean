import Verif.Proof.RfcText
import Verif.Proof.RfcUnique
import Verif.Props.Locate
import Verif.Props.Ex
/-!
C98: the syntax of RFC 9535 for queries without filters.
-/
namespace JP
open Spec

variable (env : Env)

/-- Every string literal of the RFC stands for the string that the RFC says, in brackets and in expressions. -/
theorem C98_literal (w v : Bytes) (h : Rfc.StringLiteral w v) :
    parsePath env (b! "$[" ++ (w ++ b! "]")) = .ok [⟨.select, [.str v]⟩] ∧ parseScriptExpression env w = .ok (.str v) :=
  lit_read h.lit

/-- `'é😀\''` -/
example := C98_literal Ex.env (b! "'\\u00e9\\ud83d\\ude00\\''") ([0xC3, 0xA9, 0xF0, 0x9F, 0x98, 0x80, 0x27])
  (.mk (.inr rfl) (.unicode (h := b! "u00e9") (.mk (.digit 0 (by decide)) (.digit 0 (by decide)) (.lower 4 (by decide)) (.digit 9 (by decide)))
      (by decide)
    (.pair (h := b! "ud83d") (h' := b! "ude00") (.mk (.lower 3 (by decide)) (.digit 8 (by decide)) (.digit 3 (by decide)) (.lower 3 (by decide)))
      (.mk (.lower 3 (by decide)) (.lower 4 (by decide)) (.digit 0 (by decide)) (.digit 0 (by decide))) (by decide) (.quote .nil))))

/-- The full statement: every text that the grammar of the RFC allows for a query without filters is compiled, and evaluated as the RFC says. -/
def Spec.RfcTextRule (env : Env) : Prop :=
  ∀ (oracle : Oracle), oracle.Valid → ∀ (q : Rfc.Query) (text : Bytes), q.Valid → Rfc.WrittenQuery q text → text.length ≤ 3 * 2 ^ 20 →
    ∃ p, Compile env text = .ok p ∧ ∀ (root : V), root.WF → ∃ res, Eval env oracle p root = some (.ok (some res)) ∧ Rfc.Gives root q res

/-- What holds of every text in which `*` stands alone in its brackets: it is compiled. -/
theorem C98_compiles_partial (q : Rfc.Query) (text : Bytes) (hq : q.Valid) (ht : Rfc.WrittenQuery q text) (hl : text.length ≤ 3 * 2 ^ 20)
    (hlone : ∀ seg ∈ q, seg.Lone) : ∃ p, Compile env text = .ok p := by
  obtain ⟨ss, _, h2⟩ := ht.parse (env := env) hq hlone
  obtain ⟨p, hp, _⟩ := compiled_of_parse h2 hl
  exact ⟨p, hp⟩

/-- And if no object has a member named by the digits of an index of the query, and slices are applied to arrays only, then it gives a nodelist
of the RFC. -/
theorem C98_query_partial (oracle : Oracle) (hv : oracle.Valid) (q : Rfc.Query) (text : Bytes) (hq : q.Valid) (ht : Rfc.WrittenQuery q text)
    (hl : text.length ≤ 3 * 2 ^ 20) (hlone : ∀ seg ∈ q, seg.Lone) (root : V) (hr : root.WF) (hd : Rfc.NoDigits root q)
    (hs : Rfc.SlicesOnArrays root q) :
    ∃ p res, Compile env text = .ok p ∧ Eval env oracle p root = some (.ok (some res)) ∧ Rfc.Gives root q res ∧
      ∀ l, Rfc.Gives root q l → res.Perm l := by
  obtain ⟨ss, h1, h2⟩ := ht.parse (env := env) hq hlone
  obtain ⟨p, res, hc, _, he, hg⟩ := Rfc.query_eval hv hr q.length q rfl hq hd hs ss text h1 h2 hl
  exact ⟨p, res, hc, he, hg, fun l h => Rfc.gives_perm hr hg h⟩

/-- `$ ['a' ,1 ] ..*` -/
example := C98_query_partial Ex.env Oracle.id Ex.valid [.child [.name (b! "a"), .index 1], .descend [.wild]] (b! "$ ['a' ,1 ] ..*")
  (by
    intro seg hs
    simp only [List.mem_cons, List.not_mem_nil, or_false] at hs
    rcases hs with rfl | rfl <;> simp [Rfc.Segment.sels, Rfc.Selector.Valid, Rfc.InRange])
  ⟨b! " ['a' ,1 ] ..*",
    .cons (g := b! " ") (w := b! "['a' ,1 ]") (by simp [Rfc.Blanks])
      (.child (.mk (g := []) (w := b! "'a' ,1") (g' := b! " ") (by simp [Rfc.Blanks])
        (.cons (w := b! "'a'") (g := b! " ") (g' := []) (w' := b! "1")
          (.name (.mk (.inr rfl) (.unescaped (r := 0x61) (t := []) (v := []) (.inl (by decide)) (by decide) (by decide) (by decide) .nil))) (by simp [Rfc.Blanks])
          (by simp [Rfc.Blanks]) (.one (.index (.pos (by simp [Digit]) (by decide) (by simp [All]))))) (by simp [Rfc.Blanks])))
      (.cons (g := b! " ") (w := b! "..*") (by simp [Rfc.Blanks]) .dotsWild .nil), rfl⟩
  (by decide)
  (by
    intro seg hs
    simp only [List.mem_cons, List.not_mem_nil, or_false] at hs
    rcases hs with rfl | rfl <;> simp [Rfc.Segment.Lone, Rfc.Segment.sels])

/-- The full statement is false, as for the texts of C96. -/
theorem C98_fails : ¬ RfcTextRule env := by
  intro h
  obtain ⟨p, hc, _⟩ := h Oracle.id (fun _ _ _ => List.Perm.refl _) [.child [.wild, .index 0]] (b! "$[*,0]")
    (by intro seg hs; rw [List.mem_singleton.1 hs]; simp [Rfc.Segment.sels, Rfc.Selector.Valid, Rfc.InRange])
    ⟨b! "[*,0]", .cons (g := []) (w := b! "[*,0]") (by simp [Rfc.Blanks])
      (.child (.mk (g := []) (w := b! "*,0") (g' := []) (by simp [Rfc.Blanks]) (.cons (w := b! "*") (g := []) (g' := []) (w' := b! "0") .wild (by simp [Rfc.Blanks])
        (by simp [Rfc.Blanks]) (.one (.index .zero))) (by simp [Rfc.Blanks]))) .nil, rfl⟩ (by decide)
  have : ∃ e, Compile env (b! "$[*,0]") = .err e := ⟨_, rfl⟩
  obtain ⟨e, he⟩ := this
  rw [hc] at he
  cases he

/-- Other texts are compiled too, which by the RFC must be refused: here one with a blank before the `$`. -/
theorem C98_fails_strict : (∃ p, Compile env (b! " $") = .ok p) ∧ ∀ q, ¬ Rfc.WrittenQuery q (b! " $") := by
  refine ⟨⟨_, rfl⟩, ?_⟩
  rintro q ⟨t, _, h⟩
  cases h

/-! ### Normalized Paths -/

/-- The Normalized Path of a place is a text of the query for that place, if the names in it are in UTF-8. -/
theorem C98_normal_text (pl : Place) (h : ∀ s, Key.name s ∈ pl → ∃ rs : List Nat, (∀ r ∈ rs, r.isValidChar) ∧ s = rs.flatMap utf8) :
    Rfc.WrittenQuery (Rfc.ofPlace pl) (Rfc.normalPath pl) := ⟨_, Rfc.normal_written h, rfl⟩

example := C98_normal_text [.name (b! "a'"), .index 10] (by
  intro s hs
  simp only [List.mem_cons, List.not_mem_nil, or_false, Key.name.injEq, reduceCtorEq] at hs
  subst hs
  exact ⟨[0x61, 0x27], by decide, by decide⟩)

/-- The Normalized Path of a place in a document is compiled, and gives exactly the value at that place. -/
theorem C98_normalized (oracle : Oracle) (root : V) (hr : root.WF) (pl : Place) (v : V) (h : At root pl v)
    (ht : (Rfc.normalPath pl).length ≤ 3 * 2 ^ 20) :
    ∃ p, Compile env (Rfc.normalPath pl) = .ok p ∧ Eval env oracle p root = some (.ok (some [v])) := by
  have hi : ∀ i, Key.index i ∈ pl → i < 2 ^ 63 := at_index_lt h hr
  obtain ⟨p, hp, hc⟩ := compiled_of_parse (Rfc.normal_parse (env := env) hi) ht
  refine ⟨p, hp, ?_⟩
  rw [(C59_single env oracle p _ _ hc (keys_single hi) root hr).1, h.reads.follow hr]

example := C98_normalized Ex.env Oracle.id Ex.doc Ex.doc_wf [.name (b! "a"), .index 2] (.int 3)
  (.member (List.mem_cons_self ..) (.elem rfl (.here _))) (by decide +kernel)

/-- Different places have different Normalized Paths. -/
theorem C98_unique (root : V) (hr : root.WF) (pl pl' : Place) (v v' : V) (h : At root pl v) (h' : At root pl' v')
    (he : Rfc.normalPath pl = Rfc.normalPath pl') : pl = pl' := by
  have h1 := Rfc.normal_parse (env := Ex.env) (at_index_lt h hr)
  have h2 := Rfc.normal_parse (env := Ex.env) (at_index_lt h' hr)
  rw [he, h2] at h1
  simp only [Res.ok.injEq] at h1
  exact Rfc.keySteps_inj (at_index_lt h hr) (at_index_lt h' hr) h1.symm

example := C98_unique Ex.doc Ex.doc_wf [.name (b! "a"), .index 2] [.name (b! "a"), .index 2] (.int 3) (.int 3)
  (.member (List.mem_cons_self ..) (.elem rfl (.here _))) (.member (List.mem_cons_self ..) (.elem rfl (.here _))) rfl

end JP
