import Verif.Proof.Conc.System
import Verif.Proof.Conc.Loops
/-!
No evaluation is ever stuck, none goes on for ever unless the machine does, and no two goroutines are at the same
memory while one of them writes.
-/
namespace JP.Conc

theorem Steps.trans {env : Env} {grow : Nat → Nat} {a b c : Sys} (hab : Steps env grow a b) (hbc : Steps env grow b c) :
    Steps env grow a c := by
  induction hbc with
  | refl => exact hab
  | step y z _ h2 ih => exact .step _ _ _ ih h2

theorem Steps.one {env : Env} {grow : Nat → Nat} {a b : Sys} (h : Step env grow a b) : Steps env grow a b :=
  .step _ _ _ (.refl a) h

/-! ## Progress -/

theorem progress {env : Env} {grow : Nat → Nat} {F : Addr → Prop} {h : Heap} {e : Nat} {E : Eval} {p : Program} {v : V}
    {μ : Rank} (hi : EvalInv env F h e E p v μ) (hd : ¬E.Done) : ∃ h' E', EvalStep env grow e h E h' E' := by
  rcases hi with ⟨_, ch, W, hb, hw, _⟩ | ⟨hx, _⟩
  · -- a producer on which the evaluation waits
    have meet : ∀ c cs, ch.live = c :: cs → ∃ P, E.prods[c]? = some P ∧
        ((∃ x, P.pending = some x) ∨ P.closed = true ∨ ∃ P', P.Step h P') := by
      intro c cs hl
      have hlt := hb.live c (by rw [hl]; simp)
      refine ⟨_, List.getElem?_eq_getElem hlt, ?_⟩
      have hp := hb.prods c _ (List.getElem?_eq_getElem hlt)
      cases hpd : E.prods[c].pending with
      | some x => exact .inl ⟨x, rfl⟩
      | none =>
        cases hcl : E.prods[c].closed with
        | true => exact .inr (.inl rfl)
        | false => exact .inr (.inr (hp.can hpd hcl))
    rcases wp_can hw with ⟨r, hr⟩ | ⟨h', p', ha⟩
    · rw [hr] at hw
      cases r with
      | err x => exact absurd (by unfold Eval.Done; rw [hr]; trivial) hd
      | panic x => exact absurd (by unfold Eval.Done; rw [hr]; trivial) hd
      | stuck => exact absurd (by unfold Eval.Done; rw [hr]; trivial) hd
      | ok c =>
        cases c with
        | next s => exact ⟨_, _, .next h E s hr⟩
        | halt r => exact absurd (by unfold Eval.Done; rw [hr]; trivial) hd
        | start walk s =>
          obtain ⟨F', s', r, _, _, ho, _⟩ := hw
          exact ⟨_, _, .start h E walk s r hr ho⟩
        | await s =>
          obtain ⟨F', s', c, cs, _, hs, hl, _⟩ := hw
          have hv : s.values = c :: cs := by rw [hs.values.1, hl]
          obtain ⟨P, hP, ⟨x, hx⟩ | hx | ⟨P', hx⟩⟩ := meet c cs hl
          · exact ⟨_, _, .await h E s c cs P x hr hv hP hx⟩
          · exact ⟨_, _, .awaitClosed h E s c cs P hr hv hP hx⟩
          · exact ⟨_, _, .prod h E c P P' hP hx⟩
        | rep o s =>
          obtain ⟨F', s', c, cs, _, hs, hl, _⟩ := hw
          have hv : s.values = c :: cs := by rw [hs.values.1, hl]
          obtain ⟨P, hP, ⟨x, hx⟩ | hx | ⟨P', hx⟩⟩ := meet c cs hl
          · exact ⟨_, _, .rep h E o s c cs P x hr hv hP hx⟩
          · exact ⟨_, _, .repClosed h E o s c cs P hr hv hP hx⟩
          · exact ⟨_, _, .prod h E c P P' hP hx⟩
    · exact ⟨_, _, .act h h' E p' ha⟩
  · exact absurd hx hd

/-! ## Termination -/

theorem acc_sub : ∀ c : PR Ctl, Acc Sub c
  | Prog.ret a => .intro _ fun _ ⟨_, _, _, h⟩ => by cases h
  | Prog.read a i k => .intro _ fun _ ⟨_, _, _, h⟩ => by cases h; exact acc_sub (k _)
  | Prog.write a i v k => .intro _ fun _ ⟨_, _, _, h⟩ => by cases h; exact acc_sub k
  | Prog.make cs k => .intro _ fun _ ⟨_, _, _, h⟩ => by cases h; exact acc_sub (k _)
  | Prog.find a key k => .intro _ fun _ ⟨_, _, _, h⟩ => by cases h; exact acc_sub (k _)
  | Prog.range a k => .intro _ fun _ ⟨_, _, _, h⟩ => by cases h; exact acc_sub (k _)
  | Prog.load x k => .intro _ fun _ ⟨_, _, _, h⟩ => by cases h; exact acc_sub (k _)
  | Prog.order a pc k => .intro _ fun _ ⟨_, _, _, h⟩ => by cases h; exact acc_sub (k _)
  | Prog.const a i k => .intro _ fun _ ⟨_, _, _, h⟩ => by cases h; exact acc_sub (k _)
  | Prog.size a k => .intro _ fun _ ⟨_, _, _, h⟩ => by cases h; exact acc_sub (k _)

/-- A turn of the machine. -/
def Turn (env : Env) (oracle : Oracle) (p : Program) (v : V) (T' T : MState ⊕ Res RErr GoSlice) : Prop :=
  ∃ s, T = .inl s ∧ T' = vnext env oracle p v s

theorem acc_turn {env : Env} {oracle : Oracle} {p : Program} {v : V} {r : Res RErr GoSlice} : ∀ (f : Nat) (s : MState),
    runFuel env oracle p v f s = some r → Acc (Turn env oracle p v) (.inl s)
  | 0, s, h => by simp [runFuel] at h
  | f + 1, s, h => by
    constructor
    rintro T' ⟨s0, h0, rfl⟩
    cases h0
    unfold vnext
    unfold runFuel at h
    cases he : p.orders[s.pc]? with
    | none => exact .intro _ fun _ ⟨_, h, _⟩ => by cases h
    | some o =>
      rw [he] at h
      simp only at h ⊢
      cases hs : step env oracle p v o s with
      | ok s' => rw [hs] at h; exact acc_turn f s' h
      | err e => exact .intro _ fun _ ⟨_, h, _⟩ => by cases h
      | panic m => exact .intro _ fun _ ⟨_, h, _⟩ => by cases h
      | stuck => exact .intro _ fun _ ⟨_, h, _⟩ => by cases h

theorem acc_lower {env : Env} {oracle : Oracle} {p : Program} {v : V} {T : MState ⊕ Res RErr GoSlice}
    (hT : Acc (Turn env oracle p v) T) : ∀ k c w, Acc (Lower env oracle p v) ⟨T, k, c, w⟩ := by
  induction hT with
  | intro T _ ihT =>
    intro k
    induction k using Nat.strongRecOn with
    | ind k ihk =>
      intro c
      induction acc_sub c with
      | intro c _ ihc =>
        intro w
        induction w using Nat.strongRecOn with
        | ind w ihw =>
          constructor
          intro μ hμ
          cases hμ with
          | step s _ k' _ c' _ w' => exact ihT _ ⟨s, rfl, rfl⟩ k' c' w'
          | meet _ _ k' _ c' _ w' hk => exact ihk k' hk c' w'
          | act _ _ _ c' _ hc => exact ihc c' hc w
          | prod _ _ _ _ w' hw => exact ihw w' hw

theorem EvalInv.reach {env : Env} {F : Addr → Prop} {h : Heap} {e : Nat} {E : Eval} {p : Program} {v : V}
    {μ : Rank} (hi : EvalInv env F h e E p v μ) : Reach env E.oracle p v μ.T := by
  rcases hi with ⟨_, ch, W, hb, _⟩ | ⟨_, ch, W, hb, _⟩ <;> exact hb.reach

theorem acc_inv {env : Env} {F : Addr → Prop} {h : Heap} {e : Nat} {E : Eval} {p : Program} {v : V}
    {μ : Rank} (hi : EvalInv env F h e E p v μ) {r : Res RErr GoSlice}
    (hr : run env E.oracle p v (.init v) = some r) : Acc (Lower env E.oracle p v) μ := by
  have h1 := hi.reach.run
  rw [hr] at h1
  obtain ⟨T, k, c, w⟩ := μ
  refine acc_lower ?_ k c w
  cases T with
  | inr r => exact .intro _ fun _ ⟨_, h, _⟩ => by cases h
  | inl s =>
    obtain ⟨f, hf⟩ := run_eq_some.1 h1.symm
    exact acc_turn f s hf

/-- From anywhere, the evaluation can be brought to its end. -/
theorem finishes {env : Env} {grow : Nat → Nat} {e : Nat} {r : Res RErr GoSlice} : ∀ {μ : Rank} {oracle : Oracle} {p : Program}
    {v : V}, Acc (Lower env oracle p v) μ → run env oracle p v (.init v) = some r → ∀ (y : Sys) (F : Addr → Prop)
    (G : Nat → Ghost) (E : Eval), SysInv env y F G → y.evals e = some E → E.oracle = oracle → (G e).p = p → (G e).v = v →
    (G e).μ = μ → ∃ z E', Steps env grow y z ∧ z.evals e = some E' ∧ E'.Done ∧ E'.prog = E.prog ∧ E'.root = E.root ∧
      E'.oracle = E.oracle := by
  intro μ oracle p v hacc hr
  induction hacc with
  | intro μ _ ih =>
    intro y F G E hi hE ho hp hv hμ
    by_cases hd : E.Done
    · exact ⟨y, E, .refl y, hE, hd, rfl, rfl, rfl⟩
    · obtain ⟨h', E', hst⟩ := progress (grow := grow) (hi.2.2 e E hE).2 hd
      have hes : EStep env grow e y (y.update e E' h') := ⟨E, E', h', hE, hst, rfl⟩
      obtain ⟨F', G', hK, E0, hE0, hl⟩ := inv_estep hi hes
      rw [hE] at hE0
      cases hE0
      obtain ⟨E1, k1, k2, k3, k4, k5, k6, _⟩ := hK.track e E hE
      rw [ho, hp, hv, hμ] at hl
      obtain ⟨z, E'', h1, h2, h3, h4, h5, h6⟩ := ih (G' e).μ hl (y.update e E' h') F' G' E1 hK.inv k1 (k4.trans ho)
        (k5.trans hp) (k6.trans hv) rfl
      exact ⟨z, E'', (Steps.one (.eval y e E E' h' hE hst)).trans h1, h2, h3, h4.trans k2, h5.trans k3, h6.trans k4⟩

/-- No schedule has infinitely many steps of an evaluation, unless the machine runs for ever. -/
theorem no_infinite {env : Env} {grow : Nat → Nat} {e : Nat} {oracle : Oracle} {p : Program} {v : V}
    {μ : Rank} (hacc : Acc (Lower env oracle p v) μ) (σ : Nat → Sys) (hσ : ∀ n, Step env grow (σ n) (σ (n + 1)))
    (hinf : ∀ n, ∃ m, n ≤ m ∧ EStep env grow e (σ m) (σ (m + 1))) :
    ∀ (n : Nat) (F : Addr → Prop) (G : Nat → Ghost) (E : Eval), SysInv env (σ n) F G → (σ n).evals e = some E →
      E.oracle = oracle → (G e).p = p → (G e).v = v → (G e).μ = μ → False := by
  induction hacc with
  | intro μ _ ih =>
    intro n F G E hi hE ho hp hv hμ
    obtain ⟨m, hm, hes⟩ := hinf n
    -- walk to the next step of the evaluation
    have walk : ∀ d n (F : Addr → Prop) (G : Nat → Ghost) (E : Eval), n + d = m → SysInv env (σ n) F G →
        (σ n).evals e = some E → E.oracle = oracle → (G e).p = p → (G e).v = v → (G e).μ = μ → False := by
      intro d
      induction d with
      | zero =>
        intro n F G E hn hi hE ho hp hv hμ
        simp only [Nat.add_zero] at hn
        subst hn
        obtain ⟨F', G', hK, E0, hE0, hl⟩ := inv_estep hi hes
        rw [hE] at hE0
        cases hE0
        obtain ⟨E1, k1, k2, k3, k4, k5, k6, _⟩ := hK.track e E hE
        rw [ho, hp, hv, hμ] at hl
        exact ih _ hl _ F' G' E1 hK.inv k1 (k4.trans ho) (k5.trans hp) (k6.trans hv) rfl
      | succ d ihd =>
        intro n F G E hn hi hE ho hp hv hμ
        obtain ⟨F', G', hK⟩ := inv_step hi (hσ n)
        obtain ⟨E1, k1, k2, k3, k4, k5, k6, ⟨_, k7⟩ | hl⟩ := hK.track e E hE
        · exact ihd (n + 1) F' G' E1 (by omega) hK.inv k1 (k4.trans ho) (k5.trans hp) (k6.trans hv) (k7.trans hμ)
        · rw [ho, hp, hv, hμ] at hl
          exact ih _ hl _ F' G' E1 hK.inv k1 (k4.trans ho) (k5.trans hp) (k6.trans hv) rfl
    exact walk (m - n) n F G E (by omega) hi hE ho hp hv hμ

/-! ## Who is at which memory -/

theorem RepM.mem {F : Addr → Prop} {h : Heap} {k : Bytes} {x : HV} : ∀ {xs : List (Bytes × HV)} {vs : List (Bytes × V)},
    RepM F h xs vs → (k, x) ∈ xs → ∃ v, Rep F h x v
  | _, _, .nil, hm => by cases hm
  | _, _, .cons k' x' v' xs vs h1 h2, hm => by
    rcases List.mem_cons.1 hm with hm | hm
    · cases hm; exact ⟨v', h1⟩
    · exact h2.mem hm

theorem Within.of_rep {F : Addr → Prop} {h : Heap} {x : HV} {a : Addr} (hw : Within h x a) : ∀ {v : V}, Rep F h x v → F a := by
  induction hw with
  | arr r => intro v hr; cases hr with | arr _ _ _ hf => exact hf
  | obj a => intro v hr; cases hr with | obj _ _ _ hf => exact hf
  | elem r i x b hi hc _ ih =>
    intro v hr
    cases hr with
    | arr _ cs vs hf hg hl he =>
      obtain ⟨v, _, h7⟩ := (Rep.arr r cs vs hf hg hl he).cell' hi hc
      exact ih h7
  | member a m k x b hg hm _ ih =>
    intro v hr
    cases hr with
    | obj _ m' kvs hf hg' he =>
      rw [hg] at hg'
      cases hg'
      obtain ⟨w, hw⟩ := he.mem hm
      exact ih hw

theorem wp_reads {α : Type} {e : Nat} {F : Addr → Prop} {Q : α → Heap → Prop} {c : Prog α} {h : Heap} {a : Addr}
    (hw : wp e F Q c h) (hr : Reads h c a) : Mine e F a := by
  cases c with
  | ret => exact hr.elim
  | read b i k => rw [show a = b from hr]; exact hw.1
  | write => exact hr.elim
  | make => exact hr.elim
  | find b key k => rw [show a = b from hr]; exact hw.1
  | range b k => rw [show a = b from hr]; exact hw.1
  | load x k => obtain ⟨v, h1, _⟩ := hw; exact Within.of_rep hr h1
  | order b i k => rw [show a = b from hr]; exact hw.1
  | const b i k => rw [show a = b from hr]; exact hw.1
  | size b k => rw [show a = b from hr]; exact hw.1

theorem Rep.own {F : Addr → Prop} {h : Heap} {r : SRef} {v : V} (hr : Rep F h (.arr r) v) : F r.arr := by
  cases hr with
  | arr _ _ _ hf => exact hf

theorem ProdRep.reads {F : Addr → Prop} {h : Heap} {P : Producer} {L : List V} {n : Nat} {a : Addr}
    (hp : ProdRep F h P L n) (hr : P.Reads h a) : F a := by
  obtain ⟨pv, M, m, _, _, h3, _⟩ := hp.rep
  obtain ⟨_, hr⟩ := hr
  generalize P.frames = fs at h3 hr
  cases h3 with
  | nil => exact hr.elim
  | cons f fs L M n m h4 h5 =>
    have obj : ∀ {r : SRef} {xs : List V} {i : Nat}, Rep F h (.arr r) (.arr xs) → i < r.len →
        h.cell r.arr (r.off + i) = some (.obj a) → F a := by
      intro r xs i hrep hi hc
      obtain ⟨v, _, h7⟩ := hrep.cell' hi hc
      cases h7 with
      | obj _ _ _ hf => exact hf
    cases h4 with
    | step r i xs hrep =>
      obtain ⟨hi, rfl | hc⟩ := hr
      · exact hrep.own
      · exact obj hrep hi hc
    | walker r i xs hrep =>
      obtain ⟨hi, rfl | hc⟩ := hr
      · exact hrep.own
      · exact obj hrep hi hc
    | elems r i xs hrep => rw [show a = r.arr from hr]; exact hrep.own
    | members => exact hr.elim
    | walk => exact hr.elim
    | down v loc w hrep =>
      cases hrep with
      | atom => exact hr.elim
      | arr => exact hr.elim
      | obj b m kvs hf => rw [show a = b from hr]; exact hf
    | downElems r i loc xs hrep => rw [show a = r.arr from hr]; exact hrep.own
    | downMembers => exact hr.elim

/-- A write is to memory that the evaluation has allocated itself and that nobody else can read. -/
theorem writes_own {env : Env} {F : Addr → Prop} {h : Heap} {e : Nat} {E : Eval} {p : Program} {v : V}
    {μ : Rank} (hi : EvalInv env F h e E p v μ) {a : Addr} (hw : Writes E.code a) : a.owner = e ∧ ¬F a := by
  obtain ⟨i, x, k, hc⟩ := hw
  rcases hi with ⟨_, ch, W, hb, hw, _⟩ | ⟨hd, _⟩
  · rw [hc] at hw
    exact ⟨hw.1, hw.2.1⟩
  · unfold Eval.Done at hd
    rw [hc] at hd
    exact hd.elim

theorem reads_mine {env : Env} {F : Addr → Prop} {h : Heap} {e : Nat} {E : Eval} {p : Program} {v : V}
    {μ : Rank} (hi : EvalInv env F h e E p v μ) {a : Addr} (hr : Reads h E.code a) : a.owner = e ∨ F a := by
  rcases hi with ⟨_, ch, W, hb, hw, _⟩ | ⟨hd, _⟩
  · exact wp_reads hw hr
  · unfold Eval.Done at hd
    split at hd <;> first | exact hd.elim | (rename_i hc; rw [hc] at hr; exact hr.elim)

theorem prod_reads {env : Env} {F : Addr → Prop} {h : Heap} {e : Nat} {E : Eval} {p : Program} {v : V}
    {μ : Rank} (hi : EvalInv env F h e E p v μ) {c : Nat} {P : Producer} (hP : E.prods[c]? = some P) {a : Addr}
    (hr : P.Reads h a) : F a := by
  rcases hi with ⟨_, ch, W, hb, _⟩ | ⟨_, ch, W, hb, _⟩ <;> exact (hb.prods c P hP).reads hr

/-! ## The last state before the end -/

/-- The states of the machine, one by one. -/
def nth (env : Env) (oracle : Oracle) (p : Program) (v : V) : Nat → Option MState
  | 0 => some (.init v)
  | n + 1 => match nth env oracle p v n with
    | some s => match vnext env oracle p v s with
      | .inl s' => some s'
      | .inr _ => none
    | none => none

theorem nth_of_reach {env : Env} {oracle : Oracle} {p : Program} {v : V} {T : MState ⊕ Res RErr GoSlice}
    (hr : Reach env oracle p v T) : ∀ s, T = .inl s → ∃ n, nth env oracle p v n = some s := by
  induction hr with
  | init => intro s hs; cases hs; exact ⟨0, rfl⟩
  | step s _ ih =>
    intro s' hs
    obtain ⟨n, hn⟩ := ih s rfl
    exact ⟨n + 1, by simp only [nth, hn, hs]⟩

theorem nth_none {env : Env} {oracle : Oracle} {p : Program} {v : V} {n : Nat} (h : nth env oracle p v n = none) :
    ∀ d, nth env oracle p v (n + d) = none
  | 0 => h
  | d + 1 => by
    show nth env oracle p v (n + d + 1) = none
    simp only [nth, nth_none h d]

/-- The state before the end is the same however one got there. -/
theorem From.unique {env : Env} {oracle : Oracle} {p : Program} {v : V} {r r' : Res RErr GoSlice} {a b : List (List V)}
    (ha : From env oracle p v (.inr r) a) (hb : From env oracle p v (.inr r') b) : a = b := by
  obtain ⟨s, h1, h2, rfl⟩ := ha
  obtain ⟨t, k1, k2, rfl⟩ := hb
  obtain ⟨n, hn⟩ := nth_of_reach h1 s rfl
  obtain ⟨m, hm⟩ := nth_of_reach k1 t rfl
  have hn' : nth env oracle p v (n + 1) = none := by simp only [nth, hn, ← h2]
  have hm' : nth env oracle p v (m + 1) = none := by simp only [nth, hm, ← k2]
  have e1 : ¬ n + 1 ≤ m := by
    intro hle
    have := nth_none hn' (m - (n + 1))
    rw [show n + 1 + (m - (n + 1)) = m by omega, hm] at this
    cases this
  have e2 : ¬ m + 1 ≤ n := by
    intro hle
    have := nth_none hm' (n - (m + 1))
    rw [show m + 1 + (n - (m + 1)) = n by omega, hn] at this
    cases this
  have : n = m := by omega
  subst this
  rw [hn] at hm
  cases hm
  rfl

/-! ## Producers left behind -/

theorem done_step {env : Env} {grow : Nat → Nat} {e : Nat} {h h' : Heap} {E E' : Eval} (hd : E.Done)
    (hs : EvalStep env grow e h E h' E') :
    ∃ c P P', E.prods[c]? = some P ∧ P.Step h P' ∧ E' = { E with prods := E.prods.set c P' } := by
  have no : ∀ {c : Ctl}, E.code = PR.ok c → (∀ r, c ≠ .halt r) → False := fun hc hn => not_done_of hc hn hd
  cases hs with
  | act _ _ q ha =>
    exfalso
    unfold Eval.Done at hd
    split at hd <;> first | exact hd | (rename_i hc; rw [hc] at ha; cases ha)
  | next _ s hc => exact (no hc (fun r h => by cases h)).elim
  | start _ walk s r hc ho => exact (no hc (fun r h => by cases h)).elim
  | prod _ c P P' hp hs => exact ⟨c, P, P', hp, hs, rfl⟩
  | await _ s c cs P x hc => exact (no hc (fun r h => by cases h)).elim
  | awaitClosed _ s c cs P hc => exact (no hc (fun r h => by cases h)).elim
  | rep _ o s c cs P x hc => exact (no hc (fun r h => by cases h)).elim
  | repClosed _ o s c cs P hc => exact (no hc (fun r h => by cases h)).elim

/-- A producer of an evaluation that has returned, with something yet to send, keeps having it. -/
theorem left_behind {env : Env} {grow : Nat → Nat} {e c : Nat} {L : List V} {y z : Sys} (hs : Steps env grow y z) :
    ∀ {F : Addr → Prop} {G : Nat → Ghost} {E : Eval} {P : Producer} {n : Nat}, SysInv env y F G → y.evals e = some E → E.Done →
      E.prods[c]? = some P → ProdRep F y.heap P L n →
      ∃ F' G' E' P' n', SysInv env z F' G' ∧ z.evals e = some E' ∧ E'.code = E.code ∧ E'.prods[c]? = some P' ∧
        ProdRep F' z.heap P' L n' := by
  induction hs with
  | refl => intro F G E P n hi hE hd hP hr; exact ⟨F, G, E, P, n, hi, hE, rfl, hP, hr⟩
  | step y' z _ h2 ih =>
    intro F G E P n hi hE hd hP hr
    obtain ⟨F1, G1, E1, P1, n1, k1, k2, k3, k4, k5⟩ := ih hi hE hd hP hr
    obtain ⟨F2, G2, hK⟩ := inv_step k1 h2
    have keep : ∀ E2, z.evals e = some E2 → E2.code = E1.code → ∀ P2 n2, E2.prods[c]? = some P2 →
        ProdRep F1 y'.heap P2 L n2 → ∃ F' G' E' P' n', SysInv env z F' G' ∧ z.evals e = some E' ∧ E'.code = E.code ∧
          E'.prods[c]? = some P' ∧ ProdRep F' z.heap P' L n' :=
      fun E2 a1 a2 P2 n2 a3 a4 => ⟨F2, G2, E2, P2, n2, hK.inv, a1, a2.trans k3, a3, a4.mono hK.mono hK.frozen⟩
    cases h2 with
    | build o => exact keep E1 k2 rfl P1 n1 k4 k5
    | call e' he hn prog p hk hp root v hr' oracle =>
      have : e ≠ e' := by rintro rfl; rw [hn] at k2; cases k2
      exact keep E1 (by simp [Sys.update, this, k2]) rfl P1 n1 k4 k5
    | eval e' E2 E' h' hE2 hst =>
      by_cases hee : e = e'
      · subst hee
        rw [k2] at hE2
        cases hE2
        have hd1 : E1.Done := by unfold Eval.Done; rw [k3]; exact hd
        obtain ⟨c', Q, Q', hQ, hQs, rfl⟩ := done_step hd1 hst
        by_cases hcc : c = c'
        · subst hcc
          rw [k4] at hQ
          cases hQ
          obtain ⟨n', _, hr'⟩ := k5.step hQs
          refine keep { E1 with prods := E1.prods.set c Q' } (by simp [Sys.update]) rfl Q' n' ?_ hr'
          simp only
          rw [List.getElem?_set_self]
          exact (List.getElem?_eq_some_iff.1 k4).1
        · refine keep { E1 with prods := E1.prods.set c' Q' } (by simp [Sys.update]) rfl P1 n1 ?_ k5
          simp only
          rw [List.getElem?_set_ne (Ne.symm hcc)]
          exact k4
      · exact keep E1 (by simp [Sys.update, hee, k2]) rfl P1 n1 k4 k5

/-- A producer of an evaluation that has returned, with nothing left to send, can come to its end. -/
theorem ends {env : Env} {grow : Nat → Nat} {e c : Nat} : ∀ (n : Nat) {y : Sys} {F : Addr → Prop} {G : Nat → Ghost} {E : Eval}
    {P : Producer}, SysInv env y F G → y.evals e = some E → E.prods[c]? = some P → ProdRep F y.heap P [] n →
      ∃ z E' P', Steps env grow y z ∧ z.evals e = some E' ∧ E'.prods[c]? = some P' ∧ P'.closed = true := by
  intro n
  induction n using Nat.strongRecOn with
  | ind n ih =>
    intro y F G E P hi hE hP hr
    cases hcl : P.closed with
    | true => exact ⟨y, E, P, .refl y, hE, hP, hcl⟩
    | false =>
      have hpd : P.pending = none := by
        obtain ⟨pv, M, m, h1, h2, _⟩ := hr.rep
        cases hp : P.pending with
        | none => rfl
        | some x => rw [hp] at h2; obtain ⟨v, rfl, _⟩ := h2; simp at h1
      obtain ⟨P', hs⟩ := hr.can hpd hcl
      obtain ⟨n', hn, hr'⟩ := hr.step hs
      have hst : Step env grow y (y.update e { E with prods := E.prods.set c P' } y.heap) :=
        .eval y e E _ y.heap hE (.prod y.heap E c P P' hP hs)
      obtain ⟨F', G', hK⟩ := inv_step hi hst
      obtain ⟨z, E', P'', h1, h2, h3, h4⟩ := ih n' hn (E := { E with prods := E.prods.set c P' }) (P := P') hK.inv
        (by simp [Sys.update]) (by
          show (E.prods.set c P')[c]? = some P'
          rw [List.getElem?_set_self]
          exact (List.getElem?_eq_some_iff.1 hP).1) (hr'.mono hK.mono hK.frozen)
      exact ⟨z, E', P'', (Steps.one hst).trans h1, h2, h3, h4⟩

end JP.Conc
