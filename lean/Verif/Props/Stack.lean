import Verif.Proof.Stack
import Verif.Props.Grammar
import Verif.Props.Ex
/-!
C92: how many values an evaluation holds.
-/
namespace JP
open Spec

variable (env : Env) (oracle : Oracle)

/-- The full statement: an evaluation that comes to its end has taken every value from the stack and left every loop. -/
def NothingLeftRule : Prop := ∀ (oracle : Oracle) (text : Bytes) (p : JSONPath), Compile env text = .ok p → ∀ (root : V) (s : MState),
  During env oracle p root s → p.prog.orders[s.pc]? = none → s.stack = [] ∧ s.values = []

theorem zeros_text (n : Nat) : zeros (n + 1) = writePath [⟨.union, List.replicate (n + 2) (.int 0)⟩] := by
  have h0 : writeVal (.int 0) = b! "0" := by
    show writeInt 0 = _
    unfold writeInt writeNat
    rfl
  have hc : ∀ n, commas ((List.replicate (n + 1) (Val.int 0)).map writeVal) = b! "0" ++ (List.replicate n (b! ",0")).flatten := by
    intro n
    induction n with
    | zero => exact h0
    | succ n ih =>
      rw [List.replicate_succ, List.map_cons, List.replicate_succ, List.map_cons]
      rw [List.replicate_succ, List.map_cons] at ih
      show writeVal (.int 0) ++ c! ',' :: commas (writeVal (.int 0) :: (List.replicate n (Val.int 0)).map writeVal) = _
      rw [ih, h0, List.replicate_succ]
      rfl
  show zeros (n + 1) = b! "$" ++ ((bracket (commas ((List.replicate (n + 2) (Val.int 0)).map writeVal))) ++ [])
  rw [hc]
  simp [zeros, bracket]

theorem zeros_parse (n : Nat) : parsePath env (zeros (n + 1)) = .ok [⟨.union, List.replicate (n + 2) (.int 0)⟩] := by
  rw [zeros_text]
  refine C30_write_partial env _ fun s hs => ?_
  rw [List.mem_singleton.1 hs]
  refine .union _ (by simp) fun v hv => ?_
  rw [List.eq_of_mem_replicate hv]
  exact .int _ (fun _ => by decide)

theorem codeArgs_zeros : ∀ (n : Nat) (p : Program),
    codeArgs (List.replicate n (.int 0)) p = .ok { p with orders := p.orders ++ List.replicate n (mkSmall .int 0) }
  | 0, p => by simp [codeArgs]
  | n + 1, p => by
    show codeArgs (List.replicate n (.int 0)) (asm (mkSmall .int 0) p) = _
    rw [codeArgs_zeros n]
    simp [asm, List.replicate_succ]

def zerosProg (n : Nat) : Program := ⟨[], List.replicate n (mkSmall .int 0) ++ [mkSmall .union (Int64.ofNat n)]⟩

theorem zeros_compile (n : Nat) : Compile env (zeros (n + 1)) = .ok ⟨zeros (n + 1), zerosProg (n + 2)⟩ := by
  unfold Compile
  rw [zeros_parse]
  simp only
  have : compile [⟨.union, List.replicate (n + 2) (.int 0)⟩] = .ok (zerosProg (n + 2)) := by
    show (codeArgs (List.replicate (n + 2) (.int 0)) ⟨[], []⟩ >>= fun q =>
      Res.ok (asm (mkSmall .union (lenInt (List.replicate (n + 2) (Val.int 0)))) q)) >>= (fun q => Res.ok q) = _
    rw [codeArgs_zeros]
    show Res.ok (asm _ _) = _
    simp [asm, zerosProg, lenInt]
  rw [this]

theorem zeros_step (n k : Nat) (hk : k < n) (root : V) :
    (zerosProg n).orders[k]? = some (mkSmall .int 0) ∧
    step env oracle (zerosProg n) root (mkSmall .int 0) { MState.init root with pc := k, stack := List.replicate k (.int 0) } =
      .ok { MState.init root with pc := k + 1, stack := List.replicate (k + 1) (.int 0) } := by
  refine ⟨?_, rfl⟩
  unfold zerosProg
  rw [List.getElem?_append_left (by simpa using hk), List.getElem?_replicate, if_pos hk]

theorem zeros_during (n : Nat) (t : Bytes) (root : V) : ∀ k, k ≤ n →
    During env oracle ⟨t, zerosProg n⟩ root { MState.init root with pc := k, stack := List.replicate k (.int 0) }
  | 0, _ => .start
  | k + 1, h => by
    obtain ⟨h1, h2⟩ := zeros_step env oracle n k (by omega) root
    exact .order _ _ _ (zeros_during n t root k (by omega)) h1 h2

/-- A union with a count that is packed as 0 takes nothing from the stack, and selects nothing. -/
theorem zeros_union (n : Nat) (hn : (mkSmall .union (Int64.ofNat n)).smallInt = 0) (hb : n < 2 ^ 63) (root : V) :
    (zerosProg n).orders[n]? = some (mkSmall .union (Int64.ofNat n)) ∧
    step env oracle (zerosProg n) root (mkSmall .union (Int64.ofNat n)) { MState.init root with pc := n, stack := List.replicate n (.int 0) } =
      .ok { MState.init root with out := some [], pc := n + 1, stack := List.replicate n (.int 0) } := by
  constructor
  · unfold zerosProg
    rw [List.getElem?_append_right (by simp)]
    simp
  · unfold step
    simp only
    rw [show Op.ofNat? (mkSmall .union (Int64.ofNat n)).opNum = some .union from does_small _ _]
    unfold exec
    simp only
    rw [hn]
    unfold popN
    rw [if_neg (by rw [Int64.lt_iff_toInt_lt, List.length_replicate, Int64.toInt_ofNat_of_lt hb]; show ¬ ((n : Int) < 0); omega),
      if_neg (by decide)]
    rfl

theorem C92_fails : ¬ NothingLeftRule env := by
  intro h
  have key : ∀ n, (mkSmall .union (Int64.ofNat (n + 2))).smallInt = 0 → n + 2 < 2 ^ 63 → False := by
    intro n hn hb
    obtain ⟨h1, h2⟩ := zeros_union env Oracle.id (n + 2) hn hb .null
    have hd := During.order _ _ _ (zeros_during env Oracle.id (n + 2) (zeros (n + 1)) .null (n + 2) (by omega)) h1 h2
    have := h Oracle.id _ _ (zeros_compile env n) _ _ hd (by simp [zerosProg])
    simp at this
  refine key (2 ^ 23 - 2) ?_ (by omega)
  apply Int64.toInt_inj.mp
  rw [mkSmall_smallInt_toInt, Int64.toInt_ofNat_of_lt (by omega)]
  rfl

/-- Such a path, of 16 MB, gives no value for any document. -/
theorem C92_union_lost (root : V) : ∃ p, Compile env (zeros (2 ^ 23 - 1)) = .ok p ∧ Eval env oracle p root = some (.ok (some [])) := by
  have key : ∀ n m, m = n + 1 → (mkSmall .union (Int64.ofNat (n + 2))).smallInt = 0 → n + 2 < 2 ^ 63 →
      ∃ p, Compile env (zeros m) = .ok p ∧ Eval env oracle p root = some (.ok (some [])) := by
    rintro n _ rfl hn hb
    refine ⟨_, zeros_compile env n, ?_⟩
    have go : ∀ d k, d + k = n + 2 → runFuel env oracle (zerosProg (n + 2)) root (d + 2)
        { MState.init root with pc := k, stack := List.replicate k (.int 0) } = some (.ok (some [])) := by
      intro d
      induction d with
      | zero =>
        intro k hk
        obtain rfl : k = n + 2 := by omega
        obtain ⟨h1, h2⟩ := zeros_union env oracle (n + 2) hn hb root
        unfold runFuel
        simp only [h1, h2]
        unfold runFuel
        rw [List.getElem?_eq_none (by simp [zerosProg])]
        rfl
      | succ d ih =>
        intro k hk
        obtain ⟨h1, h2⟩ := zeros_step env oracle (n + 2) k (by omega) root
        unfold runFuel
        simp only [h1, h2]
        exact ih (k + 1) (by omega)
    exact run_of_runFuel _ _ (go (n + 2) 0 (by omega))
  refine key (2 ^ 23 - 2) _ (by omega) ?_ (by omega)
  apply Int64.toInt_inj.mp
  rw [mkSmall_smallInt_toInt, Int64.toInt_ofNat_of_lt (by omega)]
  rfl

/-- With half as many, it panics. -/
theorem C92_union_panics (root : V) : ∃ p, Compile env (zeros (2 ^ 22 - 1)) = .ok p ∧
    Eval env oracle p root = some (.panic "makeslice: len out of range") := by
  have key : ∀ n m, m = n + 1 → (mkSmall .union (Int64.ofNat (n + 2))).smallInt < 0 → n + 2 < 2 ^ 63 →
      ∃ p, Compile env (zeros m) = .ok p ∧ Eval env oracle p root = some (.panic "makeslice: len out of range") := by
    rintro n _ rfl hn hb
    refine ⟨_, zeros_compile env n, ?_⟩
    have go : ∀ d k, d + k = n + 2 → runFuel env oracle (zerosProg (n + 2)) root (d + 1)
        { MState.init root with pc := k, stack := List.replicate k (.int 0) } = some (.panic "makeslice: len out of range") := by
      intro d
      induction d with
      | zero =>
        intro k hk
        obtain rfl : k = n + 2 := by omega
        have h1 : (zerosProg (n + 2)).orders[n + 2]? = some (mkSmall .union (Int64.ofNat (n + 2))) := by
          unfold zerosProg
          rw [List.getElem?_append_right (by simp)]
          simp
        have h2 : step env oracle (zerosProg (n + 2)) root (mkSmall .union (Int64.ofNat (n + 2)))
            { MState.init root with pc := n + 2, stack := List.replicate (n + 2) (.int 0) } = .panic "makeslice: len out of range" := by
          unfold step
          simp only
          rw [show Op.ofNat? (mkSmall .union (Int64.ofNat (n + 2))).opNum = some .union from does_small _ _]
          unfold exec
          simp only
          unfold popN
          rw [if_neg, if_pos hn]
          · rfl
          · rw [Int64.lt_iff_toInt_lt, List.length_replicate, Int64.toInt_ofNat_of_lt hb]
            rw [Int64.lt_iff_toInt_lt] at hn
            have : (0 : Int64).toInt = 0 := rfl
            omega
        unfold runFuel
        simp only [h1, h2]
      | succ d ih =>
        intro k hk
        obtain ⟨h1, h2⟩ := zeros_step env oracle (n + 2) k (by omega) root
        unfold runFuel
        simp only [h1, h2]
        exact ih (k + 1) (by omega)
    exact run_of_runFuel _ _ (go (n + 2) 0 (by omega))
  refine key (2 ^ 22 - 2) _ (by omega) ?_ (by omega)
  rw [Int64.lt_iff_toInt_lt, mkSmall_smallInt_toInt, Int64.toInt_ofNat_of_lt (by omega)]
  decide

/-- Programs of fewer than 2^22 orders leave nothing. -/
theorem C92_left_partial (text : Bytes) (p : JSONPath) (h : Compile env text = .ok p) (hl : p.prog.orders.length < 2 ^ 22) (root : V)
    (s : MState) (hd : During env oracle p root s) (he : p.prog.orders[s.pc]? = none) : s.stack = [] ∧ s.values = [] :=
  (Compile_heights h hl hd).2.2.2.2 he

/-- Wherever an evaluation is, the number of values on its stack, and of loops it is in, is the sum of what the orders before that place
put there and take away, however it got there. -/
theorem C92_heights_partial (text : Bytes) (p : JSONPath) (h : Compile env text = .ok p) (hl : p.prog.orders.length < 2 ^ 22) (root : V)
    (s : MState) (hd : During env oracle p root s) :
    (s.stack.length : Int) = totalOf rise (p.prog.orders.take s.pc) ∧ (s.values.length : Int) = totalOf opens (p.prog.orders.take s.pc) :=
  ⟨(Compile_heights h hl hd).1, (Compile_heights h hl hd).2.1⟩

/-- So it is the same number whenever it is at the same place, in whatever document. -/
theorem C92_same_partial (text : Bytes) (p : JSONPath) (h : Compile env text = .ok p) (hl : p.prog.orders.length < 2 ^ 22)
    (oracle' : Oracle) (root root' : V) (s s' : MState) (hd : During env oracle p root s) (hd' : During env oracle' p root' s')
    (hpc : s.pc = s'.pc) : s.stack.length = s'.stack.length ∧ s.values.length = s'.values.length := by
  obtain ⟨h1, h2, _⟩ := Compile_heights h hl hd
  obtain ⟨h3, h4, _⟩ := Compile_heights h hl hd'
  rw [hpc] at h1 h2
  omega

/-- There is at most one loop at a time, and at most one value for two bytes of the text. -/
theorem C92_most_partial (text : Bytes) (p : JSONPath) (h : Compile env text = .ok p) (hl : p.prog.orders.length < 2 ^ 22) (root : V)
    (s : MState) (hd : During env oracle p root s) : s.values.length ≤ 1 ∧ 2 * s.stack.length < text.length := by
  obtain ⟨_, _, h1, h2, _⟩ := Compile_heights h hl hd
  refine ⟨h1, ?_⟩
  have : text ≠ [] := by
    rintro rfl
    cases h
  have := List.length_pos_of_ne_nil this
  omega

/-- The shortest paths with a value on the stack have just that many. -/
theorem C92_most_exact : ∃ p s, Compile env (b! "$.a") = .ok p ∧ During env oracle p .null s ∧ s.values.length = 0 ∧
    2 * s.stack.length + 1 = (b! "$.a").length :=
  ⟨_, { MState.init .null with pc := 1, stack := [.name (b! "a")] }, rfl, .order _ (mkOrder .id 0) _ .start rfl rfl, rfl, rfl⟩

/-- An evaluation that gives a result comes to its end in such a state. -/
theorem C92_ends (p : JSONPath) (root : V) (r : GoSlice) (h : Eval env oracle p root = some (.ok r)) :
    ∃ s, During env oracle p root s ∧ p.prog.orders[s.pc]? = none ∧ r = s.result := by
  obtain ⟨f, hf⟩ := run_eq_some.1 h
  have go : ∀ f s, During env oracle p root s → runFuel env oracle p.prog root f s = some (.ok r) →
      ∃ s, During env oracle p root s ∧ p.prog.orders[s.pc]? = none ∧ r = s.result := by
    intro f
    induction f with
    | zero => intro s _ h; cases h
    | succ f ih =>
      intro s hd h
      unfold runFuel at h
      split at h
      · rename_i hn
        cases h
        exact ⟨s, hd, hn, rfl⟩
      · rename_i o ho
        split at h
        · rename_i s' hs
          exact ih s' (.order _ _ _ hd ho hs) h
        all_goals cases h
  exact go f _ .start hf

/-- The filter of `$[?(@>1)]`, at the comparison: two values and one loop. -/
example : ∃ s, During Ex.env Oracle.id ⟨b! "$[?(@>1)]", ⟨[], [mkSmall .for_ 6, mkSmall .current 0, mkSmall .int 1, mkSmall .gt 2, mkSmall .filter 1,
    mkSmall .rep 1]⟩⟩ (.arr [.int 3]) s ∧ s.pc = 3 ∧ s.stack = [.int 1, .int 3] ∧ s.values = [[]] :=
  ⟨⟨some [], .int 3, [.int 1, .int 3], 3, [[]], 1⟩,
    .order ⟨some [], .int 3, [.int 3], 2, [[]], 1⟩ (mkSmall .int 1) _
      (.order ⟨some [], .int 3, [], 1, [[]], 1⟩ (mkSmall .current 0) _ (.order (.init _) (mkSmall .for_ 6) _ .start rfl rfl) rfl rfl) rfl rfl, rfl, rfl, rfl⟩

example : Compile Ex.env (b! "$[?(@>1)]") = .ok ⟨b! "$[?(@>1)]", ⟨[], [mkSmall .for_ 6, mkSmall .current 0, mkSmall .int 1, mkSmall .gt 2, mkSmall .filter 1,
    mkSmall .rep 1]⟩⟩ := rfl

/-- Its end, with nothing left. -/
example (p : JSONPath) (h : Compile Ex.env (b! "$[?(@>1)]") = .ok p) (hl : p.prog.orders.length < 2 ^ 22) (r : GoSlice)
    (hr : Eval Ex.env Oracle.id p (.arr [.int 3]) = some (.ok r)) :
    ∃ s, During Ex.env Oracle.id p (.arr [.int 3]) s ∧ r = s.result ∧ s.stack = [] := by
  obtain ⟨s, h1, h2, h3⟩ := C92_ends Ex.env Oracle.id p _ r hr
  exact ⟨s, h1, h3, (C92_left_partial Ex.env Oracle.id _ p h hl _ s h1 h2).1⟩

end JP
