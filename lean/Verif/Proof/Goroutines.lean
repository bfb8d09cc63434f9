import Verif.Spec.Goroutines
import Verif.Proof.Conc.Loops
import Verif.Proof.Conc.History
/-!
How many producers an evaluation starts, and how many of them there are at a time.
-/
namespace JP.Conc
open JP.Spec

/-- The order begins a loop. -/
def opensLoop (o : Order) : Bool :=
  match Op.ofNat? o.opNum with
  | some .for_ | some .nest => true
  | _ => false

/-- How many orders begin a loop. -/
def loopsIn (os : List Order) : Nat := os.countP opensLoop

theorem plain_opens {o : Order} (h : PlainO o) : opensLoop o = false := by
  unfold opensLoop
  split
  · exact (h .for_ ‹_›).elim
  · exact (h .nest ‹_›).elim
  · rfl

theorem loopsIn_plain {os : List Order} (h : ∀ o ∈ os, PlainO o) : loopsIn os = 0 := by
  unfold loopsIn
  rw [List.countP_eq_zero]
  intro o ho
  simp [plain_opens (h o ho)]

theorem opens_small (op : Op) (n : Int64) : opensLoop (mkSmall op n) = (op == .for_ || op == .nest) := by
  unfold opensLoop
  rw [mkSmall_opNum, Op.ofNat?_toNat]
  cases op <;> rfl

theorem loopsIn_take {os : List Order} {a b : Nat} (h : a ≤ b) : loopsIn (os.take a) ≤ loopsIn (os.take b) :=
  (List.take_sublist_take_left h).countP_le

/-- A step of the machine begins a loop only by passing an order that does. -/
theorem At.counts {env : Env} {oracle : Oracle} {prog : Program} {root : V} {o : Order} {s s' : MState}
    (ha : At prog.orders s) (hsz : prog.orders.length < 2 ^ 22) (ho : prog.orders[s.pc]? = some o)
    (h : JP.step env oracle prog root o s = .ok s') :
    loopsIn (prog.orders.take s.pc) + (s'.values.length - s.values.length) ≤ loopsIn (prog.orders.take s'.pc) := by
  cases ha with
  | out pre os h1 h2 h3 h4 =>
    cases h3 with
    | nil =>
      rw [h1, ← h2] at ho
      simp at ho
    | plain _ o' os hp hs =>
      have : o = o' := by
        rw [h1, ← h2] at ho
        simpa using ho.symm
      subst this
      obtain ⟨k1, k2⟩ := step_plain hp h
      rw [k1, Nat.sub_self, Nat.add_zero]
      exact loopsIn_take (by omega)
    | loop _ intro hi body os hb hs =>
      have : o = mkSmall intro (Int64.ofNat (s.pc + body.length + 2)) := by
        rw [h1, ← h2] at ho
        rw [List.getElem?_append_right (by omega), Nat.sub_self, List.cons_append, List.getElem?_cons_zero] at ho
        cases ho
        rw [h2]
      subst this
      have hlen : prog.orders.length = s.pc + body.length + 2 + os.length := by
        rw [h1]; simp [h2]; omega
      have hopen : opensLoop (mkSmall intro (Int64.ofNat (s.pc + body.length + 2))) = true := by
        rw [opens_small]
        rcases hi with rfl | rfl <;> rfl
      have main : ∀ vals : List V, JP.looptop prog.orders.length (Int64.ofNat (s.pc + body.length + 2)) vals
          { s with pc := s.pc + 1, tick := s.tick + 1 } = .ok s' →
          loopsIn (prog.orders.take s.pc) + (s'.values.length - s.values.length) ≤ loopsIn (prog.orders.take s'.pc) := by
        intro vals h
        unfold JP.looptop at h
        split at h
        · rw [branch_ok prog _ _ (by omega) (by omega) hsz] at h
          cases h
          simp only [Nat.sub_self, Nat.add_zero]
          exact loopsIn_take (by omega)
        · cases h
          simp only [List.length_cons]
          rw [List.take_add_one, ho]
          simp only [loopsIn, Option.toList, List.countP_append, List.countP_cons, List.countP_nil, hopen, if_true]
          omega
      rw [step_small] at h
      rcases hi with rfl | rfl
      · simp only [JP.exec, small_pc (show s.pc + body.length + 2 < 2 ^ 22 by omega)] at h
        exact main _ h
      · simp only [JP.exec, small_pc (show s.pc + body.length + 2 < 2 ^ 22 by omega)] at h
        exact main _ h
  | body pre body os intro h1 h2 h3 h4 h5 vs h6 =>
    have hlen : prog.orders.length = pre.length + body.length + 2 + os.length := by
      rw [h1]; simp; omega
    by_cases hlt : s.pc < pre.length + 1 + body.length
    · have hmem : o ∈ body := by
        rw [h1] at ho
        rw [List.getElem?_append_right (by omega), List.cons_append, List.getElem?_cons] at ho
        rw [if_neg (by omega), List.getElem?_append_left (by omega)] at ho
        exact List.mem_of_getElem? ho
      obtain ⟨k1, k2⟩ := step_plain (h2 o hmem) h
      rw [k1, Nat.sub_self, Nat.add_zero]
      exact loopsIn_take (by omega)
    · have hpc : s.pc = pre.length + 1 + body.length := by omega
      have : o = mkSmall .rep (Int64.ofNat (pre.length + 1)) := by
        rw [h1] at ho
        rw [List.getElem?_append_right (by omega), List.cons_append, List.getElem?_cons] at ho
        rw [if_neg (by omega), List.getElem?_append_right (by omega)] at ho
        rw [show s.pc - pre.length - 1 - body.length = 0 by omega] at ho
        simpa using ho.symm
      subst this
      rw [step_small] at h
      simp only [JP.exec, h6, small_pc (show pre.length + 1 < 2 ^ 22 by omega)] at h
      cases vs with
      | nil =>
        cases h
        simp only [h6, List.length_cons, List.length_nil]
        exact loopsIn_take (by simp)
      | cons v more =>
        simp only at h
        rw [branch_ok prog _ _ (by omega) (by omega) hsz] at h
        cases h
        simp only [h6, List.length_cons, List.length_nil, Nat.sub_self, Nat.add_zero]
        have key : prog.orders.take s.pc = prog.orders.take (pre.length + 1) ++ body := by
          rw [hpc, h1, show pre.length + 1 + body.length = pre.length + (body.length + 1) by omega,
            List.take_length_add_append, List.take_length_add_append]
          simp
        rw [key, loopsIn, List.countP_append]
        have := loopsIn_plain h2
        rw [loopsIn] at this
        rw [this]
        exact Nat.le_refl _

theorem At.one {orders : List Order} {s : MState} (h : At orders s) : s.values.length ≤ 1 := by
  cases h with
  | out pre os h1 h2 h3 h4 => rw [h4]; simp
  | body pre body os intro h1 h2 h3 h4 h5 vs h6 => rw [h6]; simp

theorem Tally.reach {env : Env} {oracle : Oracle} {p : Program} {root : V} {T : MState ⊕ Res RErr GoSlice} {n : Nat}
    (h : Tally env oracle p root T n) : Reach env oracle p root T := by
  induction h with
  | init => exact .init
  | step s n _ ih => exact .step s ih

theorem vnext_inl {env : Env} {oracle : Oracle} {p : Program} {root : V} {s s' : MState}
    (h : vnext env oracle p root s = .inl s') : ∃ o, p.orders[s.pc]? = some o ∧ JP.step env oracle p root o s = .ok s' := by
  unfold vnext at h
  cases ho : p.orders[s.pc]? with
  | none => rw [ho] at h; cases h
  | some o =>
    rw [ho] at h
    simp only at h
    refine ⟨o, rfl, ?_⟩
    cases hst : JP.step env oracle p root o s with
    | ok s'' => rw [hst] at h; cases h; rfl
    | err x => rw [hst] at h; cases h
    | panic x => rw [hst] at h; cases h
    | stuck => rw [hst] at h; cases h

/-- The loops that the machine has begun are among those that it has passed. -/
theorem Tally.le {env : Env} {oracle : Oracle} {text : Bytes} {p : JSONPath} {root : V} (hc : Compile env text = .ok p)
    (hsz : p.prog.orders.length < 2 ^ 22) {T : MState ⊕ Res RErr GoSlice} {n : Nat}
    (h : Tally env oracle p.prog root T n) : ∀ s, T = .inl s → n ≤ loopsIn (p.prog.orders.take s.pc) := by
  induction h with
  | init => intro s _; exact Nat.zero_le _
  | step s n hs ih =>
    intro s' hs'
    obtain ⟨o, h1, h2⟩ := vnext_inl hs'
    have h3 := (hs.reach.at hc hsz s rfl).counts hsz h1 h2
    have h4 := ih s rfl
    rw [hs']
    simp only [begins]
    omega

theorem Held.bounds {env : Env} {oracle : Oracle} {text : Bytes} {p : JSONPath} {root : V} (hc : Compile env text = .ok p)
    (hsz : p.prog.orders.length < 2 ^ 22) {T : MState ⊕ Res RErr GoSlice} {n l : Nat}
    (h : Held env oracle p.prog root T n l) : n ≤ loopsIn p.prog.orders ∧ l ≤ 1 := by
  have all : ∀ k, loopsIn (p.prog.orders.take k) ≤ loopsIn p.prog.orders := fun k => (List.take_sublist _ _).countP_le
  rcases h with ⟨-, rfl, rfl⟩ | ⟨s, m, h1, h2, h3⟩
  · exact ⟨Nat.zero_le _, Nat.zero_le _⟩
  · rcases h3 with ⟨rfl, rfl⟩ | ⟨s', rfl, rfl, rfl⟩
    · exact ⟨Nat.le_trans (h1.le hc hsz s rfl) (all _), (h1.reach.at hc hsz s rfl).one⟩
    · have h4 := Tally.step s m h1
      rw [← h2] at h4
      exact ⟨Nat.le_trans (h4.le hc hsz s' rfl) (all _), (h4.reach.at hc hsz s' rfl).one⟩

/-! ## The loops of a program are those of the path -/

theorem adds_loopsIn {p p' : Program} (h : Adds p p') : loopsIn p'.orders = loopsIn p.orders := by
  obtain ⟨os, h1, h2⟩ := h
  rw [h1, loopsIn, List.countP_append]
  have := loopsIn_plain h2
  rw [loopsIn] at this
  rw [this, Nat.add_zero, loopsIn]

theorem codeLoop_loopsIn {s : JP.Step} (hw : s.WF) {intro : Op} (hi : intro = .for_ ∨ intro = .nest)
    {p p' : Program} (hp : p.Small) (h : codeLoop s intro p = .ok p') : loopsIn p'.orders = loopsIn p.orders + 1 := by
  unfold codeLoop at h
  simp only at h
  obtain ⟨q, hq, h⟩ := bind_eq_ok h
  cases h
  obtain ⟨body, h1, h2⟩ := codeStep_adds hw (by simpa [asm, Program.Small] using hp) hq
  simp only [asm] at h1
  have h3 := loopsIn_plain h2
  have hopen : (intro == Op.for_ || intro == Op.nest) = true := by
    rcases hi with rfl | rfl <;> rfl
  simp only [patch, asm, h1, List.append_assoc]
  rw [List.set_append_right _ _ (Nat.le_refl _)]
  simp only [Nat.sub_self, List.cons_append, List.nil_append, List.set_cons_zero]
  unfold loopsIn at h3 ⊢
  simp only [List.countP_append, List.countP_cons, List.countP_nil, h3, opens_small, hopen, if_true]
  rfl

theorem codePathStep_loopsIn {s : JP.Step} (hw : s.WF) {p p' : Program} (hp : p.Small)
    (h : codePathStep s p = .ok p') : loopsIn p'.orders = loopsIn p.orders + (if oneByOne s then 1 else 0) := by
  have hw2 := hw.2
  have stp : codeStep s p = .ok p' → loopsIn p'.orders = loopsIn p.orders := fun h => adds_loopsIn (codeStep_adds hw hp h)
  unfold codePathStep at h
  unfold oneByOne
  cases hop : s.op <;> rw [hop] at h hw2 <;> simp only at hw2 <;>
    simp only [Op.isLeaf, Op.hasVal, Bool.and_false, Bool.false_eq_true, if_false, if_true, Nat.add_zero] at h ⊢
  all_goals first
    | exact stp h
    | exact codeLoop_loopsIn hw (.inl rfl) hp h
    | exact codeLoop_loopsIn hw (.inr rfl) hp h

theorem codePath_loopsIn : ∀ (path : Path) (_ : path.WF) {p p' : Program} (_ : p.Small),
    codePath path p = .ok p' → loopsIn p'.orders = loopsIn p.orders + loopSteps path
  | [], _, p, p', _, h => by unfold codePath at h; cases h; rfl
  | s :: r, hw, p, p', hp, h => by
    unfold codePath at h
    obtain ⟨q, hq, h⟩ := bind_eq_ok h
    have h1 := codePathStep_loopsIn (hw s (by simp)) hp hq
    have h2 := codePath_loopsIn r (fun v hv => hw v (by simp [hv])) ((codePathStep_grows hq).small hp) h
    rw [h2, h1]
    unfold loopSteps
    rw [List.filter_cons]
    split
    · simp only [List.length_cons]; omega
    · omega

theorem compile_loopsIn {env : Env} {text : Bytes} {p : JSONPath} (h : Compile env text = .ok p) {path : Path}
    (hp : parsePath env text = .ok path) : loopsIn p.prog.orders = loopSteps path := by
  obtain ⟨path', hp', hw, hc, _⟩ := Compile_ok h
  rw [hp] at hp'
  cases hp'
  have := codePath_loopsIn path hw (by simp [Program.Small]) hc
  simpa [loopsIn] using this

/-- The channels of an evaluation, at any time. -/
theorem history_held {env : Env} {grow : Nat → Nat} {e : Nat} {p : Program} {v : V} {oracle : Oracle} {z : Sys} {E : Eval}
    (hz : History env grow e p v oracle z) (hE : z.evals e = some E) :
    ∃ T, ∃ live : List Nat, Held env oracle p v T E.prods.length live.length ∧
      ∀ c (P : Producer), E.prods[c]? = some P → c ∉ live → P.closed = true := by
  obtain ⟨F, G, E0, hi, hE0, rfl, hgp, hgv⟩ := hz.inv
  rw [hE] at hE0
  cases hE0
  have hinv := (hi.2.2 e E hE).2
  rw [hgp, hgv] at hinv
  rcases hinv with ⟨_, ch, W, hb, _⟩ | ⟨_, ch, W, hb, _⟩ <;> exact ⟨_, ch.live, hb.held, hb.closed⟩

theorem history_one {env : Env} {grow : Nat → Nat} {text : Bytes} (ht : text.length ≤ 3 * 2 ^ 20) {p : JSONPath}
    (hp : Compile env text = .ok p) {e : Nat} {v : V} {oracle : Oracle} {z : Sys} {E : Eval}
    (hz : History env grow e p.prog v oracle z) (hE : z.evals e = some E) {c d : Nat} (hc : E.Open c) (hd : E.Open d) :
    c = d := by
  obtain ⟨T, live, h1, h2⟩ := history_held hz hE
  have h3 := (h1.bounds hp (Compile_small hp ht)).2
  have mem : ∀ i, E.Open i → i ∈ live := by
    rintro i ⟨P, hP, ho⟩
    refine Classical.byContradiction fun hn => ?_
    rw [h2 i P hP hn] at ho
    cases ho
  have hc := mem c hc
  have hd := mem d hd
  match live, h3, hc, hd with
  | [x], _, hc, hd => simp at hc hd; rw [hc, hd]
  | _ :: _ :: _, h3, _, _ => simp at h3

/-! ## The number, in the end -/

/-- The loops begun in the first `k` steps. -/
def begun (env : Env) (oracle : Oracle) (p : Program) (v : V) : Nat → Nat
  | 0 => 0
  | k + 1 => begun env oracle p v k + (match nth env oracle p v k, nth env oracle p v (k + 1) with
    | some s, some s' => s'.values.length - s.values.length
    | _, _ => 0)

theorem Tally.at_nth {env : Env} {oracle : Oracle} {p : Program} {v : V} {T : MState ⊕ Res RErr GoSlice} {n : Nat}
    (h : Tally env oracle p v T n) : ∀ s, T = .inl s → ∃ k, nth env oracle p v k = some s ∧ begun env oracle p v k = n := by
  induction h with
  | init => intro s hs; cases hs; exact ⟨0, rfl, rfl⟩
  | step s n _ ih =>
    intro s' hs
    obtain ⟨k, h1, h2⟩ := ih s rfl
    have h3 : nth env oracle p v (k + 1) = some s' := by simp only [nth, h1, hs]
    refine ⟨k + 1, h3, ?_⟩
    rw [begun, h1, h3, h2, hs]
    rfl

theorem returned_begun {env : Env} {grow : Nat → Nat} {e : Nat} {p : Program} {v : V} {oracle : Oracle} {z : Sys} {E : Eval}
    (hz : History env grow e p v oracle z) (hE : z.evals e = some E) (hd : E.Done) {k : Nat}
    (h1 : nth env oracle p v k ≠ none) (h2 : nth env oracle p v (k + 1) = none) :
    E.prods.length = begun env oracle p v k := by
  obtain ⟨F, G, E0, hi, hE0, rfl, hgp, hgv⟩ := hz.inv
  rw [hE] at hE0
  cases hE0
  have hinv := (hi.2.2 e E hE).2
  rw [hgp, hgv] at hinv
  rcases hinv with ⟨hn, _⟩ | ⟨_, ch, W, hb, _, hc, _⟩
  · exact absurd hd hn
  · obtain ⟨r, hT⟩ : ∃ r, (G e).μ.T = .inr r := by
      unfold Came at hc
      split at hc
      · obtain ⟨⟨vs, h, _⟩, _⟩ := hc; exact ⟨_, h⟩
      · exact ⟨_, hc.1⟩
      · exact ⟨_, hc⟩
      · exact ⟨_, hc⟩
      · exact hc.elim
    have hh := hb.held
    rw [hT] at hh
    rcases hh with ⟨h, _⟩ | ⟨s, m, h3, h4, h5⟩
    · cases h
    · rcases h5 with ⟨h5, _⟩ | ⟨s', h5, _⟩
      · obtain ⟨j, h6, h7⟩ := h3.at_nth s rfl
        have h8 : nth env E.oracle p v (j + 1) = none := by simp only [nth, h6, ← h4]
        have e1 : ¬ j + 1 ≤ k := by
          intro hle
          have := nth_none h8 (k - (j + 1))
          rw [show j + 1 + (k - (j + 1)) = k by omega] at this
          exact h1 this
        have e2 : ¬ k + 1 ≤ j := by
          intro hle
          have := nth_none h2 (j - (k + 1))
          rw [show k + 1 + (j - (k + 1)) = j by omega, h6] at this
          cases this
        have : j = k := by omega
        subst this
        rw [h5, h7]
      · cases h5

/-- The goroutine that has not ended is the one started last. -/
theorem history_last {env : Env} {grow : Nat → Nat} {text : Bytes} (ht : text.length ≤ 3 * 2 ^ 20) {p : JSONPath}
    (hp : Compile env text = .ok p) {e : Nat} {v : V} {oracle : Oracle} {z : Sys}
    (hz : History env grow e p.prog v oracle z) : ∀ E, z.evals e = some E → ∀ c, E.Open c → c + 1 = E.prods.length := by
  obtain ⟨x, y, prog, root, h1, h2, h3, h4, h5⟩ := hz
  induction h5 with
  | refl =>
    intro E hE c ⟨P, hP, _⟩
    obtain ⟨_, _, _, rfl⟩ := h4
    simp only [Sys.update, if_true] at hE
    cases hE
    simp at hP
  | step z w hs hst ih =>
    intro E hE c hc
    cases hst with
    | build o => exact ih E hE c hc
    | call e' _ hn =>
      simp only [Sys.update] at hE
      split at hE
      · cases hE
        obtain ⟨P, hP, _⟩ := hc
        simp at hP
      · exact ih E hE c hc
    | eval e' E0 E1 h' hE0 hes =>
      have hw : History env grow e p.prog v oracle (z.update e' E1 h') :=
        ⟨x, y, prog, root, h1, h2, h3, h4, .step _ _ _ hs (.eval z e' E0 E1 h' hE0 hes)⟩
      have hone : ∀ d, E.Open d → c = d := fun d => history_one ht hp hw hE hc
      simp only [Sys.update] at hE
      split at hE
      · rename_i hee
        subst hee
        cases hE
        have ih := ih E0 hE0
        cases hes with
        | act => exact ih c hc
        | next => exact ih c hc
        | start _ walk s r hcode ho =>
          have hnew : Eval.Open { E0 with
              code := started E0.prods.length s,
              prods := E0.prods ++ [Producer.start (E0.oracle (s.tick - 1)) walk r] } E0.prods.length :=
            ⟨Producer.start (E0.oracle (s.tick - 1)) walk r, by simp, rfl⟩
          have := hone _ hnew
          simp [this]
        | prod _ c' P P' hP hst =>
          obtain ⟨Q, hQ, ho⟩ := hc
          rw [List.length_set]
          refine ih c ?_
          rcases set_get hP hQ with ⟨rfl, rfl⟩ | ⟨_, h5⟩
          · refine ⟨P, hP, ?_⟩
            cases hst <;> rfl
          · exact ⟨Q, h5, ho⟩
        | await _ s c' cs P x hcode hv hP hx =>
          obtain ⟨Q, hQ, ho⟩ := hc
          rw [List.length_set]
          refine ih c ?_
          rcases set_get hP hQ with ⟨rfl, rfl⟩ | ⟨_, h5⟩
          · exact ⟨P, hP, ho⟩
          · exact ⟨Q, h5, ho⟩
        | awaitClosed => exact ih c hc
        | rep _ o s c' cs P x hcode hv hP hx =>
          obtain ⟨Q, hQ, ho⟩ := hc
          rw [List.length_set]
          refine ih c ?_
          rcases set_get hP hQ with ⟨rfl, rfl⟩ | ⟨_, h5⟩
          · exact ⟨P, hP, ho⟩
          · exact ⟨Q, h5, ho⟩
        | repClosed => exact ih c hc
      · exact ih E hE c hc

end JP.Conc
