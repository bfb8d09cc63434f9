import Verif.Proof.JsOrder
import Verif.Props.Ex
/-!
C79: the relational operators and JavaScript's.

In full the claim is that the four operators hold exactly when they do in JavaScript, for all simple values.  The code
does not meet it when one of the values is null, or one is a string and the other is none, and it orders
strings by characters, where JavaScript orders them by units of UTF-16.
-/
namespace JP
open Spec F64

variable (env : Env)

/-! ### C79 Relational operators as in JavaScript -/

/-- An operator gives a value that counts as true exactly when JavaScript's gives true. -/
def JsAgrees (op : Op) (a b : V) (x y : Simple) : Prop := ∃ r, Yields2 env op a b r ∧ (¬ Falsy r ↔ JsRel env op x y)

/-- Full statement, for pairs of simple values of some kind. -/
def JsOrderRule (K : Simple → Simple → Prop) : Prop :=
  ∀ op ∈ [Op.lt, .le, .gt, .ge], ∀ (a b : V) (x y : Simple), simple? a = some x → simple? b = some y → Readable x → Readable y → K x y →
    JsAgrees env op a b x y

private theorem falsy_bool (b : Bool) : ¬ Falsy (.bool b) ↔ b = true := by
  cases b
  · exact ⟨fun h => absurd .false h, fun h => by cases h⟩
  · exact ⟨fun _ => rfl, fun _ h => by cases h⟩

private theorem agrees_false {op : Op} {a b : V} {x y : Simple} (h : Yields2 env op a b (.bool false)) (h' : JsAgrees env op a b x y)
    {o : V → V → Res RErr V} (ho : ∀ a b, binop env op a b = some (o a b)) : ¬ JsRel env op x y := by
  obtain ⟨r, h1, h2⟩ := h'
  rw [yields2_iff (ho a b)] at h h1
  rw [h] at h1
  cases h1
  rw [← h2, falsy_bool]
  simp

/-- It is false for null: `null < 1` does not hold. -/
theorem C79_null_fails : ¬ JsOrderRule env (fun x _ => x = .null) := by
  intro h
  have h1 := h .lt (by simp) .null (.int 1) .null (.number (.int 1)) rfl rfl trivial trivial rfl
  refine agrees_false env (C25_incomparable env .lt (by simp) _ _ (by simp [Failed]) (by simp [Failed]) (.inl rfl) (.inl (by simp))) h1
    (fun _ _ => rfl) ?_
  show (0 : Int) < 1
  decide

/-- It is false for a number and a string: `1 < "2"` does not hold. -/
theorem C79_mixed_fails : ¬ JsOrderRule env (fun x y => (∃ n, x = .number n) ∧ ∃ s, y = .string s) := by
  intro h
  have h1 := h .lt (by simp) (.int 1) (.str (b! "2")) (.number (.int 1)) (.string (b! "2")) rfl rfl trivial
    ⟨[0x32], by intro r hr; simp at hr; subst hr; decide, rfl⟩ ⟨⟨_, rfl⟩, ⟨_, rfl⟩⟩
  refine agrees_false env (C25_incomparable env .lt (by simp) _ _ (by simp [Failed]) (by simp [Failed]) (.inr rfl) (.inl (by simp))) h1
    (fun _ _ => rfl) ?_
  show (1 : Int) < 2
  decide

/-- Strings are ordered by their characters. -/
theorem C79_characters (rs ts : List Nat) (hr : Chars rs) (ht : Chars ts) :
    Coherent env (.str (text rs)) (.str (text ts)) (decide (rs < ts)) (decide (rs = ts)) (decide (ts < rs)) := by
  have h := C25_strings env (text rs) (text ts)
  have e1 : decide (text rs < text ts) = decide (rs < ts) := by rw [Bool.eq_iff_iff, decide_eq_true_eq, decide_eq_true_eq, text_lt_iff hr ht]
  have e2 : decide (text ts < text rs) = decide (ts < rs) := by rw [Bool.eq_iff_iff, decide_eq_true_eq, decide_eq_true_eq, text_lt_iff ht hr]
  have e3 : decide (text rs = text ts) = decide (rs = ts) := by
    rw [Bool.eq_iff_iff, decide_eq_true_eq, decide_eq_true_eq]
    exact ⟨text_inj hr ht, fun h => by rw [h]⟩
  rw [e1, e2, e3] at h
  exact h

example := C79_characters Ex.env [0xFF5E] [0x1F600] (by intro r hr; simp at hr; subst hr; decide) (by intro r hr; simp at hr; subst hr; decide)

private def charRel : Op → List Nat → List Nat → Prop
  | .lt, rs, ts => rs < ts
  | .gt, rs, ts => ts < rs
  | .le, rs, ts => ¬ ts < rs
  | _, rs, ts => ¬ rs < ts

private theorem strings_agree {rs ts : List Nat} (hr : Chars rs) (ht : Chars ts) (op : Op) (hop : op ∈ [Op.lt, .le, .gt, .ge]) :
    ∃ r : Bool, Yields2 env op (.str (text rs)) (.str (text ts)) (.bool r) ∧
      (r = true ↔ charRel op rs ts) := by
  obtain ⟨h1, h2, h3, h4, h5, h6⟩ := C79_characters env rs ts hr ht
  simp only [List.mem_cons, List.not_mem_nil, or_false] at hop
  rcases hop with rfl | rfl | rfl | rfl
  · exact ⟨_, h1, by simp [charRel]⟩
  · refine ⟨_, h4, ?_⟩
    revert h6
    by_cases a1 : rs < ts <;> by_cases a2 : rs = ts <;> by_cases a3 : ts < rs <;> simp [charRel, a1, a2, a3]
  · exact ⟨_, h3, by simp [charRel]⟩
  · refine ⟨_, h5, ?_⟩
    revert h6
    by_cases a1 : rs < ts <;> by_cases a2 : rs = ts <;> by_cases a3 : ts < rs <;> simp [charRel, a1, a2, a3]

/-- Where two strings clash the answer is never JavaScript's. -/
theorem C79_clash (rs ts : List Nat) (hr : Chars rs) (ht : Chars ts) (hc : Clash rs ts) (op : Op) (hop : op ∈ [Op.lt, .le, .gt, .ge]) :
    ¬ JsAgrees env op (.str (text rs)) (.str (text ts)) (.string (text rs)) (.string (text ts)) := by
  rintro ⟨r, h1, h2⟩
  obtain ⟨r', h3, h4⟩ := strings_agree env hr ht op hop
  have tri := nats_trichotomy rs ts
  have irr : rs ≠ ts := fun e => clash_irrefl (e ▸ hc)
  have asy : ¬ (rs < ts ∧ ts < rs) := fun h => List.lt_irrefl _ (List.lt_trans h.1 h.2)
  simp only [List.mem_cons, List.not_mem_nil, or_false] at hop
  rcases hop with rfl | rfl | rfl | rfl
  all_goals
    rw [yields2_ok rfl] at h1 h3
    rw [← h3] at h1
    subst h1
    rw [falsy_bool, h4] at h2
    simp only [charRel, JsRel, JsLess, JsOrdered, before_iff hr ht, before_iff ht hr, units_clash hr ht hc, units_clash ht hr hc.symm, true_and] at h2
    tauto

/-- So it is false for strings: a character such as U+FF5E is before those beyond U+FFFF here, and after them in JavaScript. -/
theorem C79_strings_fails : ¬ JsOrderRule env (fun x y => (∃ s, x = .string s) ∧ ∃ t, y = .string t) := by
  intro h
  have c1 : Chars [0xFF5E] := by intro r hr; simp at hr; subst hr; decide
  have c2 : Chars [0x1F600] := by intro r hr; simp at hr; subst hr; decide
  exact C79_clash env [0xFF5E] [0x1F600] c1 c2 (.left _ _ _ _ (by decide) (by decide) (by decide)) .lt (by simp)
    (h .lt (by simp) _ _ _ _ rfl rfl ⟨_, c1, rfl⟩ ⟨_, c2, rfl⟩ ⟨⟨_, rfl⟩, ⟨_, rfl⟩⟩)

private theorem numbers_agree (a b : V) (m n : Number) (x y : Simple) (ha : arithmetic? a = some m) (hb : arithmetic? b = some n)
    (hx : toNumber env x = m) (hy : toNumber env y = n) (hs : ∀ s, x ≠ .string s) (ht : ∀ s, y ≠ .string s)
    (op : Op) (hop : op ∈ [Op.lt, .le, .gt, .ge]) : JsAgrees env op a b x y := by
  have less : ∀ {x y : Simple}, (∀ s, x ≠ .string s) → JsLess env x y = (toNumber env x).Lt (toNumber env y) := by
    intro x y h
    cases x <;> first | rfl | exact absurd rfl (h _)
  have ordered : JsOrdered env x y = ((toNumber env x).Ordered ∧ (toNumber env y).Ordered) := by
    cases x <;> first | rfl | exact absurd rfl (hs _)
  have lt1 := C25_lt_numbers env a b m n ha hb
  have lt2 := C25_lt_numbers env b a n m hb ha
  rw [(C25_swap env b a _).1] at lt2
  by_cases ho : m.Ordered ∧ n.Ordered
  · obtain ⟨lt, eq, gt, h1, h2, h3, h4, h5, h6⟩ := C25_numbers env a b m n ha hb ho.1 ho.2
    have e1 : lt = true ↔ m.Lt n := by
      rw [← lt1]
      rw [yields2_ok rfl] at h1 ⊢
      rw [← h1]; simp
    have e2 : gt = true ↔ n.Lt m := by
      rw [← lt2]
      rw [yields2_ok rfl] at h3 ⊢
      rw [← h3]; simp
    simp only [List.mem_cons, List.not_mem_nil, or_false] at hop
    rcases hop with rfl | rfl | rfl | rfl
    · refine ⟨_, h1, ?_⟩
      rw [falsy_bool, JsRel, less hs, hx, hy, e1]
    · refine ⟨_, h4, ?_⟩
      rw [falsy_bool, JsRel, less ht, ordered, hx, hy, ← e2]
      rcases h6 with ⟨rfl, rfl, rfl⟩ | ⟨rfl, rfl, rfl⟩ | ⟨rfl, rfl, rfl⟩ <;> simp [ho.1, ho.2]
    · refine ⟨_, h3, ?_⟩
      rw [falsy_bool, JsRel, less ht, hx, hy, e2]
    · refine ⟨_, h5, ?_⟩
      rw [falsy_bool, JsRel, less hs, ordered, hx, hy, ← e1]
      rcases h6 with ⟨rfl, rfl, rfl⟩ | ⟨rfl, rfl, rfl⟩ | ⟨rfl, rfl, rfl⟩ <;> simp [ho.1, ho.2]
  · have hn : ¬ m.Lt n ∧ ¬ n.Lt m := by
      have i1 : ∀ i : Int, (Number.int i).Ordered := fun i => ofInt_not_nan i
      constructor
      all_goals
        intro h
        apply ho
        cases m <;> cases n
        · exact ⟨i1 _, i1 _⟩
        all_goals
          obtain ⟨h1, h2, -⟩ := flt_iff.1 h
          first | exact ⟨h1, h2⟩ | exact ⟨h2, h1⟩
    have hr : ∀ i f g, (∀ u v : F64, u.isNaN = true ∨ v.isNaN = true → f u v = false) → relation env a b i f g = .bool false := by
      intro i f g hf
      have nan : (cvf env a).isNaN = true ∨ (cvf env b).isNaN = true := by
        by_contra hc
        rw [not_or, Bool.not_eq_true, Bool.not_eq_true] at hc
        apply ho
        have : ∀ (v : V) (k : Number), arithmetic? v = some k → (cvf env v).isNaN = false → k.Ordered := by
          intro v k hk h
          cases v <;> simp [arithmetic?] at hk <;> subst hk
          · exact ofInt_not_nan _
          · exact ofInt_not_nan _
          · exact ofInt_not_nan _
          · exact h
        exact ⟨this a m ha hc.1, this b n hb hc.2⟩
      have fl : isFloat a = true ∨ isFloat b = true := by
        have : ∀ v : V, (arithmetic? v).isSome → (cvf env v).isNaN = true → isFloat v = true := by
          intro v hv h
          cases v <;> simp [arithmetic?] at hv
          · rename_i c; cases c <;> (rw [cvf] at h; exact absurd h (by decide))
          · rw [cvf, ofInt_not_nan] at h; cases h
          · rw [cvf, ofInt_not_nan] at h; cases h
          · rfl
        exact nan.imp (this a (by rw [ha]; rfl)) (this b (by rw [hb]; rfl))
      unfold relation
      cases a <;> simp [arithmetic?] at ha <;> cases b <;> simp [arithmetic?] at hb <;> simp [isNothing, isSimple, isString, isFloat] at fl ⊢ <;>
        exact hf _ _ nan
    have n1 : ∀ u v : F64, u.isNaN = true ∨ v.isNaN = true → u.flt v = false := by
      intro u v h
      rw [Bool.eq_false_iff]; intro h'
      obtain ⟨h1, h2, -⟩ := flt_iff.1 h'
      rcases h with h | h
      · rw [h] at h1; cases h1
      · rw [h] at h2; cases h2
    have n2 : ∀ u v : F64, u.isNaN = true ∨ v.isNaN = true → u.fle v = false := by
      intro u v h
      rw [Bool.eq_false_iff]; intro h'
      obtain ⟨h1, h2, -⟩ := fle_iff.1 h'
      rcases h with h | h
      · rw [h] at h1; cases h1
      · rw [h] at h2; cases h2
    simp only [List.mem_cons, List.not_mem_nil, or_false] at hop
    refine ⟨.bool false, ?_, ?_⟩
    · rcases hop with rfl | rfl | rfl | rfl
      · rw [yields2_ok rfl, hr _ _ _ n1]
      · rw [yields2_ok rfl, hr _ _ _ n2]
      · rw [yields2_ok rfl, hr _ _ _ fun u v h => n1 v u h.symm]
      · rw [yields2_ok rfl, hr _ _ _ fun u v h => n2 v u h.symm]
    · rw [falsy_bool]
      rcases hop with rfl | rfl | rfl | rfl
      · rw [JsRel, less hs, hx, hy]; simp [hn.1]
      · rw [JsRel, ordered, hx, hy]; simp; intro h1 h2; exact absurd ⟨h1, h2⟩ ho
      · rw [JsRel, less ht, hx, hy]; simp [hn.2]
      · rw [JsRel, ordered, hx, hy]; simp; intro h1 h2; exact absurd ⟨h1, h2⟩ ho

private theorem undefined_never (op : Op) (x y : Simple) (h : x = .undefined ∨ y = .undefined) : ¬ JsRel env op x y := by
  have nan : (F64.nan).isNaN = true := by decide
  have l1 : ∀ n : Number, ¬ (Number.float .nan).Lt n := by
    intro n h
    have h' : F64.nan.flt n.toF64 = true := by cases n <;> exact h
    rw [flt_iff, nan] at h'
    cases h'.1
  have l2 : ∀ n : Number, ¬ n.Lt (.float .nan) := by
    intro n h
    have h' : n.toF64.flt F64.nan = true := by cases n <;> exact h
    rw [flt_iff, nan] at h'
    cases h'.2.1
  have o : ¬ (Number.float .nan).Ordered := by
    intro h
    have h' : F64.nan.isNaN = false := h
    rw [nan] at h'; cases h'
  have less1 : ∀ y, ¬ JsLess env .undefined y := fun y => l1 _
  have less2 : ∀ x, ¬ JsLess env x .undefined := fun x h => l2 (toNumber env x) (by cases x <;> exact h)
  have ord1 : ∀ y, ¬ JsOrdered env .undefined y := fun y h => o h.1
  have ord2 : ∀ x, ¬ JsOrdered env x .undefined := fun x h => by cases x <;> exact o h.2
  rcases h with rfl | rfl <;> cases op <;> simp [JsRel, less1, less2, ord1, ord2]

/-- It is true for numbers and booleans, for failures, and for strings that do not clash. -/
theorem C79_order_partial : JsOrderRule env JsComparable := by
  intro op hop a b x y hx hy _ _ hk
  have failed : ∀ {v : V}, simple? v = some .undefined → Failed v := by
    intro v h
    cases v <;> simp [simple?] at h; trivial
  have arith : ∀ {v : V} {k : Simple}, simple? v = some k → (∃ n, k = .number n) ∨ (∃ c, k = .bool c) → arithmetic? v = some (toNumber env k) := by
    intro v k h hk
    cases v <;> simp [simple?] at h <;> subst h <;> simp [arithmetic?, toNumber] at hk ⊢
  have strict : op ∈ strictOps := by
    simp only [List.mem_cons, List.not_mem_nil, or_false] at hop
    rcases hop with rfl | rfl | rfl | rfl <;> decide
  cases hk with
  | left y => exact ⟨_, C23_propagates env op strict a b (.inl (failed hx)), ⟨fun h => absurd (.failed _) h, fun h => absurd h (undefined_never env op _ _ (.inl rfl))⟩⟩
  | right x => exact ⟨_, C23_propagates env op strict a b (.inr (failed hy)), ⟨fun h => absurd (.failed _) h, fun h => absurd h (undefined_never env op _ _ (.inr rfl))⟩⟩
  | numbers m n => exact numbers_agree env a b _ _ _ _ (arith hx (by simp)) (arith hy (by simp)) rfl rfl (by simp) (by simp) op hop
  | bools m n => exact numbers_agree env a b _ _ _ _ (arith hx (by simp)) (arith hy (by simp)) rfl rfl (by simp) (by simp) op hop
  | boolNumber m n => exact numbers_agree env a b _ _ _ _ (arith hx (by simp)) (arith hy (by simp)) rfl rfl (by simp) (by simp) op hop
  | numberBool m n => exact numbers_agree env a b _ _ _ _ (arith hx (by simp)) (arith hy (by simp)) rfl rfl (by simp) (by simp) op hop
  | strings rs ts hr ht hn =>
    have str : ∀ {v : V} {s : Bytes}, simple? v = some (.string s) → v = .str s := by
      intro v s h
      cases v <;> simp [simple?] at h
      subst h; rfl
    rw [str hx, str hy]
    obtain ⟨r, h1, h2⟩ := strings_agree env hr ht op hop
    refine ⟨_, h1, ?_⟩
    rw [falsy_bool, h2]
    simp only [List.mem_cons, List.not_mem_nil, or_false] at hop
    rcases hop with rfl | rfl | rfl | rfl <;>
      simp only [charRel, JsRel, JsLess, JsOrdered, before_iff hr ht, before_iff ht hr, units_iff hr ht hn, units_iff ht hr fun h => hn h.symm, true_and]

example : JsComparable (.string (b! "a")) (.string (b! "b")) :=
  .strings [0x61] [0x62] (by intro r hr; simp at hr; subst hr; decide) (by intro r hr; simp at hr; subst hr; decide) (by intro h; cases h <;> omega)

example := C79_order_partial Ex.env .ge (by simp) (.float .one) (.bool true) _ _ rfl rfl trivial trivial (.numberBool _ _)

end JP
