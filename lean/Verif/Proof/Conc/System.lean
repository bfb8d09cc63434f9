import Verif.Spec.Conc
import Verif.Proof.Conc.Control
/-!
The invariant of the whole system of `Model/Conc.lean`: every evaluation is where `Model/Machine.lean` says it is,
whatever the schedule.
-/
namespace JP.Conc

/-- What holds of an evaluation, running or not. -/
structure Base (env : Env) (F : Addr → Prop) (h : Heap) (E : Eval) (p : Program) (v : V) (ch : Chans)
    (W : Nat → Nat) (T : MState ⊕ Res RErr GoSlice) : Prop where
  prog : F E.prog
  hprog : h.get E.prog = some (.prog p)
  root : Rep F h E.root v
  reach : Reach env E.oracle p v T
  nodup : ch.live.Nodup
  live : ∀ c ∈ ch.live, c < E.prods.length
  prods : ∀ c P, E.prods[c]? = some P → ProdRep F h P (ch.rest c) (W c)
  closed : ∀ c P, E.prods[c]? = some P → c ∉ ch.live → P.closed = true
  held : Held env E.oracle p v T E.prods.length ch.live.length

/-- How far an evaluation has got: the state of `Machine.lean` that it is on its way to, the meetings with
a producer before that, the actions before those, and the steps that its producers have to take. -/
structure Rank where
  T : MState ⊕ Res RErr GoSlice
  k : Nat
  code : PR Ctl
  w : Nat

/-- The code after an action. -/
def Sub (a b : PR Ctl) : Prop := ∃ e h h', Act e h b h' a

/-- Further on. -/
inductive Lower (env : Env) (oracle : Oracle) (p : Program) (v : V) : Rank → Rank → Prop where
  | step (s : MState) (k k' : Nat) (c c' : PR Ctl) (w w' : Nat) :
      Lower env oracle p v ⟨vnext env oracle p v s, k', c', w'⟩ ⟨.inl s, k, c, w⟩
  | meet (T : MState ⊕ Res RErr GoSlice) (k k' : Nat) (c c' : PR Ctl) (w w' : Nat) (hk : k' < k) :
      Lower env oracle p v ⟨T, k', c', w'⟩ ⟨T, k, c, w⟩
  | act (T : MState ⊕ Res RErr GoSlice) (k : Nat) (c c' : PR Ctl) (w : Nat) (hc : Sub c' c) :
      Lower env oracle p v ⟨T, k, c', w⟩ ⟨T, k, c, w⟩
  | prod (T : MState ⊕ Res RErr GoSlice) (k : Nat) (c : PR Ctl) (w w' : Nat) (hw : w' < w) :
      Lower env oracle p v ⟨T, k, c, w'⟩ ⟨T, k, c, w⟩

/-- The sum over producers. -/
def total (n : Nat) (W : Nat → Nat) : Nat := ((List.range n).map W).sum

theorem total_lt {W W' : Nat → Nat} {c : Nat} (h1 : W' c < W c) (h2 : ∀ i, i ≠ c → W' i = W i) : ∀ n, c < n →
    total n W' < total n W := by
  intro n
  induction n with
  | zero => intro h; omega
  | succ n ih =>
    intro h
    simp only [total, List.range_succ, List.map_append, List.sum_append, List.map_cons, List.map_nil, List.sum_cons,
      List.sum_nil] at ih ⊢
    by_cases hc : c = n
    · subst hc
      have : (List.range c).map W' = (List.range c).map W := by
        apply List.map_congr_left
        intro i hi
        exact h2 i (by simp at hi; omega)
      rw [this]; omega
    · have := ih (by omega)
      rw [h2 n (Ne.symm hc)]
      omega

/-- The evaluation of program `p` on document `v` is on its way. -/
def Running (env : Env) (F : Addr → Prop) (h : Heap) (e : Nat) (E : Eval) (p : Program) (v : V) (μ : Rank) : Prop :=
  ∃ ch W, Base env F h E p v ch W μ.T ∧ wp e F (Good env E.oracle p v e F ch μ.k μ.T) E.code h ∧ μ.code = E.code ∧
    μ.w = total E.prods.length W

/-- What an evaluation that has returned came to; `vals` is what its channels had yet to deliver. -/
def Came (env : Env) (oracle : Oracle) (p : Program) (v : V) (F : Addr → Prop) (h : Heap) (e : Nat)
    (T : MState ⊕ Res RErr GoSlice) (vals : List (List V)) : PR Ctl → Prop
  | .ret (.ok (.halt r)) => (∃ vs, T = .inr (.ok (some vs)) ∧ Rep F h (.arr r) (.arr vs) ∧ r.arr.owner = e) ∧
      From env oracle p v T vals
  | .ret (.err x) => T = .inr (.err x) ∧ From env oracle p v T vals
  | .ret (.panic m) => T = .inr (.panic m)
  | .ret .stuck => T = .inr .stuck
  | _ => False

/-- The evaluation has returned; nothing of its memory changes any more. -/
def Finished (env : Env) (F : Addr → Prop) (h : Heap) (e : Nat) (E : Eval) (p : Program) (v : V) (μ : Rank) : Prop :=
  ∃ ch W, Base env F h E p v ch W μ.T ∧ (∀ a, a.owner = e → h.get a ≠ none → F a) ∧
    Came env E.oracle p v F h e μ.T (ch.live.map ch.rest) E.code ∧ μ.code = E.code ∧ μ.w = total E.prods.length W

/-- What holds of an evaluation. -/
def EvalInv (env : Env) (F : Addr → Prop) (h : Heap) (e : Nat) (E : Eval) (p : Program) (v : V) (μ : Rank) : Prop :=
  (¬E.Done ∧ Running env F h e E p v μ) ∨ (E.Done ∧ Finished env F h e E p v μ)

/-- What an evaluation works on, and how far it has got. -/
structure Ghost where
  p : Program
  v : V
  μ : Rank

/-- What holds of the system. -/
def SysInv (env : Env) (y : Sys) (F : Addr → Prop) (G : Nat → Ghost) : Prop :=
  FValid F y.heap ∧ (∀ a, a.owner = 0 → y.heap.get a ≠ none → F a) ∧
    ∀ e E, y.evals e = some E → e ≠ 0 ∧ EvalInv env F y.heap e E (G e).p (G e).v (G e).μ

/-! ## Changes elsewhere -/

theorem Base.mono {env : Env} {F F' : Addr → Prop} {h h' : Heap} {E : Eval} {p : Program} {v : V} {ch : Chans}
    {W : Nat → Nat} {T : MState ⊕ Res RErr GoSlice} (hf : ∀ a, F a → F' a) (hg : ∀ a, F a → h'.get a = h.get a)
    (hb : Base env F h E p v ch W T) : Base env F' h' E p v ch W T :=
  { hb with
    prog := hf _ hb.prog
    hprog := by rw [hg _ hb.prog]; exact hb.hprog
    root := hb.root.mono hf hg
    prods := fun c P hp => (hb.prods c P hp).mono hf hg }

theorem Came.mono {env : Env} {oracle : Oracle} {p : Program} {v : V} {F F' : Addr → Prop} {h h' : Heap} {e : Nat}
    {T : MState ⊕ Res RErr GoSlice} {vals : List (List V)} {c : PR Ctl}
    (hf : ∀ a, F a → F' a) (hg : ∀ a, F a → h'.get a = h.get a) (hc : Came env oracle p v F h e T vals c) :
    Came env oracle p v F' h' e T vals c := by
  unfold Came at hc ⊢
  split at hc
  · obtain ⟨⟨vs, h1, h2, h3⟩, h4⟩ := hc
    exact ⟨⟨vs, h1, h2.mono hf hg, h3⟩, h4⟩
  · exact hc
  · exact hc
  · exact hc
  · exact hc.elim

theorem EvalInv.agree {env : Env} {F G : Addr → Prop} {h h' : Heap} {e : Nat} {E : Eval} {p : Program} {v : V} {μ : Rank}
    (g : Agree e F h G h') (hi : EvalInv env F h e E p v μ) : EvalInv env G h' e E p v μ := by
  rcases hi with ⟨hd, ch, W, hb, hw, h1⟩ | ⟨hd, ch, W, hb, ho, hc, h1⟩
  · exact .inl ⟨hd, ch, W, hb.mono g.mono g.frozen, wp_agree (fun _ _ _ g hq => hq.agree g) _ _ _ g hw, h1⟩
  · refine .inr ⟨hd, ch, W, hb.mono g.mono g.frozen, ?_, hc.mono g.mono g.frozen, h1⟩
    intro a ha hn
    rw [get_own g.own ha] at hn
    exact g.mono a (ho a ha hn)

/-! ## Returning -/

theorem Freeze.trans' {e : Nat} {F G : Addr → Prop} (hf : Freeze e F G) (h : Heap) :
    Freeze e F (fun a => G a ∨ (a.owner = e ∧ h.get a ≠ none)) :=
  ⟨fun a h => .inl (hf.mono a h), fun a h => by
    rcases h with h | h
    · exact hf.own a h
    · exact .inr h.1⟩

/-- An evaluation that has just returned freezes all that it has. -/
theorem Running.settle {env : Env} {F : Addr → Prop} {h : Heap} {e : Nat} {E : Eval} {p : Program} {v : V} {μ : Rank}
    (hF : FValid F h) (hr : Running env F h e E p v μ) :
    ∃ F', Freeze e F F' ∧ FValid F' h ∧ EvalInv env F' h e E p v μ := by
  by_cases hd : E.Done
  · obtain ⟨ch, W, hb, hw, hμ⟩ := hr
    have all : ∀ G : Addr → Prop, Freeze e F G → FValid G h →
        Came env E.oracle p v (fun a => G a ∨ (a.owner = e ∧ h.get a ≠ none)) h e μ.T (ch.live.map ch.rest) E.code →
        ∃ F', Freeze e F F' ∧ FValid F' h ∧ EvalInv env F' h e E p v μ := by
      intro G hG hv hc
      refine ⟨_, hG.trans' h, ?_, .inr ⟨hd, ch, W, hb.mono (hG.trans' h).mono (fun _ _ => rfl), ?_, hc, hμ⟩⟩
      · rintro a (h1 | h1)
        · exact hv a h1
        · exact h1.2
      · exact fun a h1 h2 => .inr ⟨h1, h2⟩
    unfold Eval.Done at hd
    split at hd
    · rename_i r hcode
      rw [hcode] at hw
      obtain ⟨F', vs, h1, h2, h3, h4, hfrom⟩ := hw
      refine all F' h1 h2 ?_
      rw [hcode]
      obtain ⟨cs, h5, h6⟩ := h3
      have h7 := h5.off; have h8 := h5.cap; have h9 := h5.len
      refine ⟨⟨vs, h4, .arr r cs vs (.inr ⟨h5.owner, by rw [h5.get]; simp⟩) h5.get (by omega) ?_, h5.owner⟩, hfrom⟩
      rw [h7, List.drop_zero]
      exact h6.mono (fun _ h => .inl h) (fun _ _ => rfl)
    · rename_i x hcode
      rw [hcode] at hw
      exact all F (Freeze.refl e F) hF (by rw [hcode]; exact hw)
    · rename_i x hcode
      rw [hcode] at hw
      exact all F (Freeze.refl e F) hF (by rw [hcode]; exact hw)
    · rename_i hcode
      rw [hcode] at hw
      exact all F (Freeze.refl e F) hF (by rw [hcode]; exact hw)
    · exact hd.elim
  · exact ⟨F, Freeze.refl e F, hF, .inl ⟨hd, hr⟩⟩

/-! ## Steps of one evaluation -/

/-- What a step of evaluation `e` leaves. -/
structure After (env : Env) (e : Nat) (F : Addr → Prop) (h h' : Heap) (E E' : Eval) (p : Program) (v : V) (μ : Rank) :
    Prop where
  other : ∀ w, w ≠ e → h' w = h w
  frozen : ∀ a, F a → h'.get a = h.get a
  same : E'.prog = E.prog ∧ E'.root = E.root ∧ E'.oracle = E.oracle
  inv : ∃ F' μ', Freeze e F F' ∧ FValid F' h' ∧ EvalInv env F' h' e E' p v μ' ∧ Lower env E.oracle p v μ' μ

theorem After.of_running {env : Env} {e : Nat} {F F1 : Addr → Prop} {h : Heap} {E E' : Eval} {p : Program} {v : V}
    {μ μ' : Rank} (hs : E'.prog = E.prog ∧ E'.root = E.root ∧ E'.oracle = E.oracle)
    (hl : Lower env E.oracle p v μ' μ) (hf : Freeze e F F1) (hv : FValid F1 h) (hr : Running env F1 h e E' p v μ') :
    After env e F h h E E' p v μ := by
  obtain ⟨F', h1, h2, h3⟩ := hr.settle hv
  exact ⟨fun _ _ => rfl, fun _ _ => rfl, hs, F', μ', hf.trans h1, h2, h3, hl⟩

theorem set_get {α : Type} {xs : List α} {c i : Nat} {a b x : α} (hc : xs[c]? = some a) (hi : (xs.set c b)[i]? = some x) :
    (i = c ∧ x = b) ∨ (i ≠ c ∧ xs[i]? = some x) := by
  rw [List.getElem?_set] at hi
  split at hi
  · rename_i h1
    subst h1
    split at hi
    · simp at hi; exact .inl ⟨rfl, hi.symm⟩
    · cases hi
  · rename_i h1
    exact .inr ⟨fun h => h1 h.symm, hi⟩

/-- Channel `c` with something else to deliver. -/
def Chans.setRest (ch : Chans) (c : Nat) (L : List V) : Chans := ⟨ch.live, fun i => if i = c then L else ch.rest i⟩

theorem map_setRest {ch : Chans} {cs : List Nat} {c : Nat} {L : List V} (hc : c ∉ cs) :
    cs.map (ch.setRest c L).rest = cs.map ch.rest := by
  apply List.map_congr_left
  intro i hi
  have : i ≠ c := fun h => hc (h ▸ hi)
  simp [Chans.setRest, this]

/-- The evaluation receives a value. -/
theorem Base.recv {env : Env} {F : Addr → Prop} {h : Heap} {E : Eval} {p : Program} {v : V} {ch : Chans}
    {W : Nat → Nat} {T : MState ⊕ Res RErr GoSlice} (hb : Base env F h E p v ch W T) {c : Nat} {P : Producer} {x : HV}
    (hp : E.prods[c]? = some P) (hx : P.pending = some x) :
    ∃ w M, ch.rest c = w :: M ∧ Rep F h x w ∧ ∀ code,
      Base env F h { E with code := code, prods := E.prods.set c { P with pending := none } } p v (ch.setRest c M) W T := by
  obtain ⟨w, M, h1, h2, h3⟩ := (hb.prods c P hp).recv hx
  refine ⟨w, M, h1, h2, fun code => { hb with live := ?_, prods := ?_, closed := ?_, held := ?_ }⟩
  · intro i hi; simpa using hb.live i hi
  · intro i Q hQ
    rcases set_get hp hQ with ⟨rfl, rfl⟩ | ⟨h4, h5⟩
    · simpa [Chans.setRest] using h3
    · simpa [Chans.setRest, h4] using hb.prods i Q h5
  · intro i Q hQ hi
    rcases set_get hp hQ with ⟨rfl, rfl⟩ | ⟨h4, h5⟩
    · exact hb.closed i P hp hi
    · exact hb.closed i Q h5 hi
  · simpa [Chans.setRest] using hb.held

theorem Base.code {env : Env} {F : Addr → Prop} {h : Heap} {E : Eval} {p : Program} {v : V} {ch : Chans}
    {W : Nat → Nat} {T : MState ⊕ Res RErr GoSlice} (hb : Base env F h E p v ch W T) (code : PR Ctl) :
    Base env F h { E with code := code } p v ch W T := { hb with }

theorem Base.to {env : Env} {F : Addr → Prop} {h : Heap} {E : Eval} {p : Program} {v : V} {ch : Chans}
    {W : Nat → Nat} {s : MState} (hb : Base env F h E p v ch W (.inl s)) (hl : s.values = ch.live.map ch.rest) :
    Base env F h E p v ch W (vnext env E.oracle p v s) :=
  have hl : ch.live.length = s.values.length := by rw [hl, List.length_map]
  { hb with reach := .step s hb.reach, held := .inr ⟨s, _, hb.held.next hl, rfl, .inl ⟨rfl, hl⟩⟩ }

theorem not_done_of {E : Eval} {c : Ctl} (hc : E.code = PR.ok c) (hn : ∀ r, c ≠ .halt r) : ¬E.Done := by
  unfold Eval.Done
  rw [hc]
  cases c <;> first | (intro h; exact h) | exact absurd rfl (hn _)

/-- Running, with the code at hand. -/
theorem EvalInv.running {env : Env} {F : Addr → Prop} {h : Heap} {e : Nat} {E : Eval} {p : Program} {v : V} {μ : Rank}
    (hi : EvalInv env F h e E p v μ) {c : Ctl} (hc : E.code = PR.ok c) (hn : ∀ r, c ≠ .halt r) :
    ∃ ch W T k w, Base env F h E p v ch W T ∧ Good env E.oracle p v e F ch k T (.ok c) h ∧ μ = ⟨T, k, E.code, w⟩ := by
  rcases hi with ⟨_, ch, W, hb, hw, h1, h2⟩ | ⟨hd, _⟩
  · rw [hc] at hw
    exact ⟨ch, W, μ.T, μ.k, μ.w, hb, hw, by rw [← h1]⟩
  · exact absurd hd (not_done_of hc hn)

theorem StRel.receive {e : Nat} {F : Addr → Prop} {ch : Chans} {h : Heap} {hs : HState} {s : MState} {c : Nat}
    {cs : List Nat} {x : HV} {w : V} {M : List V} (hr : StRel e F ch h hs s) (hl : ch.live = c :: cs)
    (hnd : ch.live.Nodup) (hx : Rep F h x w) :
    StRel e F (ch.setRest c M) h { hs with dot := x } { s with dot := w, values := M :: cs.map ch.rest } where
  out := hr.out
  dot := hx
  stk := hr.stk
  ne := hr.ne
  pc := hr.pc
  tick := hr.tick
  values := by
    refine ⟨hr.values.1, ?_⟩
    rw [hl] at hnd
    have : c ∉ cs := (List.nodup_cons.1 hnd).1
    rw [show (ch.setRest c M).live = c :: cs from hl, List.map_cons, map_setRest this]
    simp [Chans.setRest]
  valid := hr.valid

theorem after_step {env : Env} {grow : Nat → Nat} {e : Nat} {F : Addr → Prop} {h h' : Heap} {E E' : Eval} {p : Program}
    {v : V} {μ : Rank} (hF : FValid F h) (hi : EvalInv env F h e E p v μ) (hs : EvalStep env grow e h E h' E') :
    After env e F h h' E E' p v μ := by
  cases hs with
  | act _ _ q ha =>
    rcases hi with ⟨_, ch, W, hb, hw, hμ1, hμ2⟩ | ⟨hd, _⟩
    · obtain ⟨h1, h2, h3⟩ := wp_frame hF ha hw
      have hv' : FValid F h' := fun a ha => h3 a (hF a ha)
      obtain ⟨F', h4, h5, h6⟩ := Running.settle (μ := ⟨μ.T, μ.k, q, μ.w⟩) hv'
        ⟨ch, W, (hb.code q).mono (fun _ h => h) h2, wp_act ha hw, rfl, hμ2⟩
      refine ⟨h1, h2, ⟨rfl, rfl, rfl⟩, F', _, h4, h5, h6, ?_⟩
      obtain ⟨T, k, c, w⟩ := μ
      simp only at hμ1
      subst hμ1
      exact .act _ _ _ _ _ ⟨e, h, h', ha⟩
    · exfalso
      unfold Eval.Done at hd
      split at hd <;> first | exact hd | (rename_i hc; rw [hc] at ha; cases ha)
  | next _ hs hc =>
    obtain ⟨ch, W, T, k, w, hb, ⟨F', s, h1, h2, rfl⟩, rfl⟩ := hi.running hc (fun r h => by cases h)
    have hb' := hb.mono h1.mono (fun _ _ => rfl)
    exact .of_running ⟨rfl, rfl, rfl⟩ (.step s _ 2 _ _ _ _) h1 h2.valid
      ⟨ch, W, (hb'.to h2.values.2).code _, good_order hb.reach h2 hb'.prog hb'.hprog hb'.root, rfl, rfl⟩
  | start _ walk hs r hc ho =>
    obtain ⟨ch, W, T, k, w, hb, ⟨F', s, r', h1, h2, h3, rfl, rfl⟩, rfl⟩ := hi.running hc (fun r h => by cases h)
    rw [ho] at h3
    cases h3
    have hout := h2.out
    rw [ho] at hout
    obtain ⟨cs, g1, g2⟩ := hout.elems
    have hf : Freeze e F' (fun a => F' a ∨ a = r.arr) :=
      ⟨fun _ h => .inl h, fun a h => h.imp id (fun h => by rw [h, g1.owner])⟩
    have hv : FValid (fun a => F' a ∨ a = r.arr) h := by
      rintro a (ha | rfl)
      · exact h2.valid a ha
      · rw [g1.get]; simp
    have g3 := g1.off; have g4 := g1.cap; have g5 := g1.len
    have hrep : Rep (fun a => F' a ∨ a = r.arr) h (.arr r) (.arr s.out.elems) := by
      refine .arr r cs _ (.inr rfl) g1.get (by omega) ?_
      rw [g3, List.drop_zero]
      exact g2.mono hf.mono (fun _ _ => rfl)
    generalize hL : (if walk then JP.walker (E.oracle (s.tick - 1)) 0 s.out.elems
      else stepping (E.oracle (s.tick - 1)) 0 s.out.elems) = L at *
    have hfresh : E.prods.length ∉ ch.live := fun hm => Nat.lt_irrefl _ (hb.live _ hm)
    have hb1 := hb.mono (fun a h => hf.mono a (h1.mono a h)) (fun _ _ => rfl)
    refine .of_running ⟨rfl, rfl, rfl⟩ (.meet _ _ 1 _ _ _ _ (by omega)) (h1.trans hf) hv
      ⟨⟨E.prods.length :: ch.live, fun i => if i = E.prods.length then L else ch.rest i⟩,
      fun i => if i = E.prods.length then startCost (E.oracle (s.tick - 1)) walk s.out.elems else W i,
      { hb1 with nodup := ?_, live := ?_, prods := ?_, closed := ?_, held := ?_ }, ?_, rfl, rfl⟩
    · exact List.nodup_cons.2 ⟨hfresh, hb.nodup⟩
    · intro c hcm
      simp only [List.mem_cons] at hcm
      simp only [List.length_append, List.length_cons, List.length_nil]
      rcases hcm with rfl | hcm
      · omega
      · have := hb.live c hcm; omega
    · intro c P hP
      simp only at hP ⊢
      rw [List.getElem?_append] at hP
      split at hP
      · rename_i hlt
        have : c ≠ E.prods.length := by omega
        simp only [this, if_false]
        exact hb1.prods c P hP
      · have hc0 : c = E.prods.length := by
          rw [List.getElem?_eq_some_iff] at hP
          obtain ⟨h9, _⟩ := hP
          simp at h9; omega
        subst hc0
        simp at hP
        subst hP
        simp only [if_true]
        rw [h2.tick]
        have := prodRep_start (ord := E.oracle (s.tick - 1)) (walk := walk) hrep
        rw [hL] at this
        exact this
    · intro c P hP hnm
      simp only [List.mem_cons, not_or] at hnm
      simp only at hP
      rw [List.getElem?_append] at hP
      split at hP
      · exact hb1.closed c P hP hnm.2
      · rename_i hlt
        rw [List.getElem?_eq_some_iff] at hP
        obtain ⟨h9, _⟩ := hP
        simp at h9
        omega
    · have := hb.held.start (by simp [h2.values.2])
      simpa using this
    · -- the new output set
      have hr1 : StRel e F' ch h { hs with out := none } { s with out := none } :=
        { h2 with out := trivial, ne := fun a ha => (not_arrOf_none ha).elim }
      have hr2 := hr1.freeze hf.mono hv (fun a ha => (not_arrOf_none ha).elim) (by
        rintro a ha (hx | rfl)
        · exact h2.stk.free a ha hx
        · exact h2.ne _ (by rw [ho]; exact ⟨r, rfl, rfl⟩) ha)
      refine wp_seq (wp_emptySlice hv) ?_
      rintro r' h' ⟨hE, k1, k2⟩
      have hr3 := hr2.setOut (X := fun _ => False) (o := some r') (g := some [])
        ⟨hE, k1, by rintro a ⟨q, hq, rfl⟩; cases hq; exact .inr k2⟩ (fun _ h => h.elim)
      have hmap : ch.live.map (fun i => if i = E.prods.length then L else ch.rest i) = ch.live.map ch.rest := by
        apply List.map_congr_left
        intro i hi
        have : i ≠ E.prods.length := fun h => hfresh (h ▸ hi)
        simp [this]
      refine ⟨_, { s with out := some [], values := L :: s.values }, E.prods.length, ch.live, Freeze.refl e _,
        { hr3 with values := ?_ }, rfl, rfl, ?_⟩
      · refine ⟨by simp only [h2.values.1], ?_⟩
        simp only [List.map_cons, if_true, hmap, h2.values.2]
      · simp only [if_true, hmap, h2.values.2]
  | prod _ c P P' hp hs =>
    have hlt : c < E.prods.length := (List.getElem?_eq_some_iff.1 hp).1
    have base : ∀ {ch W T}, Base env F h E p v ch W T →
        ∃ W', Base env F h { E with prods := E.prods.set c P' } p v ch W' T ∧
          total (E.prods.set c P').length W' < total E.prods.length W := by
      intro ch W T hb
      obtain ⟨n', hn, hP'⟩ := (hb.prods c P hp).step hs
      refine ⟨fun i => if i = c then n' else W i, { hb with live := ?_, prods := ?_, closed := ?_, held := ?_ }, ?_⟩
      · intro i hi; simpa using hb.live i hi
      · intro i Q hQ
        rcases set_get hp hQ with ⟨rfl, rfl⟩ | ⟨h4, h5⟩
        · simpa using hP'
        · simpa [h4] using hb.prods i Q h5
      · intro i Q hQ hi
        rcases set_get hp hQ with ⟨rfl, rfl⟩ | ⟨_, h5⟩
        · have := hb.closed i P hp hi
          cases hs <;> first | rfl | cases this
        · exact hb.closed i Q h5 hi
      · simpa using hb.held
      · rw [List.length_set]
        exact total_lt (c := c) (by simpa using hn) (fun i hi => by simp [hi]) _ hlt
    obtain ⟨T, k, c0, w0⟩ := μ
    rcases hi with ⟨hd, ch, W, hb, hw, rfl, rfl⟩ | ⟨hd, ch, W, hb, ho, hc, rfl, rfl⟩
    · obtain ⟨W', hb', hlt'⟩ := base hb
      exact .of_running (μ' := ⟨T, k, E.code, total (E.prods.set c P').length W'⟩) ⟨rfl, rfl, rfl⟩ (.prod _ _ _ _ _ hlt')
        (Freeze.refl e F) hF ⟨ch, W', hb', hw, rfl, rfl⟩
    · obtain ⟨W', hb', hlt'⟩ := base hb
      exact ⟨fun _ _ => rfl, fun _ _ => rfl, ⟨rfl, rfl, rfl⟩, F, ⟨T, k, E.code, total (E.prods.set c P').length W'⟩,
        Freeze.refl e F, hF, .inr ⟨hd, ch, W', hb', ho, hc, rfl, rfl⟩, .prod _ _ _ _ _ hlt'⟩
  | await _ hs c cs P x hc hv hp hx =>
    obtain ⟨ch, W, T, k, w0, hb, ⟨F', s, c', cs', h1, h2, h3, rfl, rfl⟩, rfl⟩ := hi.running hc (fun r h => by cases h)
    rw [← h2.values.1, hv] at h3
    cases h3
    have hl : ch.live = c :: cs := by rw [← h2.values.1]; exact hv
    obtain ⟨w, M, k1, k2, k3⟩ := (hb.mono h1.mono (fun _ _ => rfl)).recv hp hx
    refine .of_running ⟨rfl, rfl, rfl⟩ (.meet _ _ 0 _ _ _ _ (by omega)) h1 h2.valid ⟨ch.setRest c M, W, k3 _, ⟨F', _, Freeze.refl e F',
      h2.receive (w := w) (M := M) hl hb.nodup k2, ?_⟩, rfl, rfl⟩
    rw [k1]
    rfl
  | awaitClosed _ hs c cs P hc hv hp hx =>
    obtain ⟨ch, W, T, k, w0, hb, ⟨F', s, c', cs', h1, h2, h3, rfl, rfl⟩, rfl⟩ := hi.running hc (fun r h => by cases h)
    rw [← h2.values.1, hv] at h3
    cases h3
    have hl : ch.live = c :: cs := by rw [← h2.values.1]; exact hv
    have hnil := (hb.prods c P hp).end_ hx
    refine .of_running ⟨rfl, rfl, rfl⟩ (.meet _ _ 0 _ _ _ _ (by omega)) h1 h2.valid ⟨ch, W, (hb.mono h1.mono (fun _ _ => rfl)).code _, ⟨F', { s with dot := .null },
      Freeze.refl e F', { h2 with dot := .atom _ rfl }, ?_⟩, rfl, rfl⟩
    rw [hnil]
    have := h2.values.2
    rw [hl, List.map_cons, hnil] at this
    simp only [List.headD_nil, List.tail_nil, this]
  | rep _ o hs c cs P x hc hv hp hx =>
    obtain ⟨ch, W, T, k, w0, hb, ⟨F', s, c', cs', h1, h2, h3, rfl, rfl⟩, rfl⟩ := hi.running hc (fun r h => by cases h)
    rw [← h2.values.1, hv] at h3
    cases h3
    have hl : ch.live = c :: cs := by rw [← h2.values.1]; exact hv
    obtain ⟨w, M, k1, k2, k3⟩ := (hb.mono h1.mono (fun _ _ => rfl)).recv hp hx
    have hb' := k3 (repGot E.prog o hs (some x))
    refine .of_running ⟨rfl, rfl, rfl⟩ (.meet _ _ 0 _ _ _ _ (by omega)) h1 h2.valid ⟨ch.setRest c M, W, hb', ?_, rfl, rfl⟩
    have hvals : s.values = (w :: M) :: cs.map ch.rest := by rw [h2.values.2, hl, List.map_cons, k1]
    simp only [JP.exec, hvals, repGot]
    cases o.pc with
    | none => exact rfl
    | some pc => exact sim_good (fun x h => absurd h branch_no_err) (sim_branch (h2.receive (w := w) (M := M) hl hb.nodup k2) hb'.prog hb'.hprog pc)
  | repClosed _ o hs c cs P hc hv hp hx =>
    obtain ⟨ch, W, T, k, w0, hb, ⟨F', s, c', cs', h1, h2, h3, rfl, rfl⟩, rfl⟩ := hi.running hc (fun r h => by cases h)
    rw [← h2.values.1, hv] at h3
    cases h3
    have hl : ch.live = c :: cs := by rw [← h2.values.1]; exact hv
    have hnil := (hb.prods c P hp).end_ hx
    have hvals : s.values = [] :: cs.map ch.rest := by rw [h2.values.2, hl, List.map_cons, hnil]
    have hb' := (hb.mono h1.mono (fun _ _ => rfl)).code (repGot E.prog o hs none)
    refine .of_running ⟨rfl, rfl, rfl⟩ (.meet _ _ 0 _ _ _ _ (by omega)) h1 h2.valid ⟨⟨cs, ch.rest⟩, W, { hb' with nodup := ?_, live := ?_, closed := ?_, held := ?_ }, ?_, rfl, rfl⟩
    · have := hb.nodup; rw [hl] at this; exact (List.nodup_cons.1 this).2
    · intro i hi; exact hb.live i (by rw [hl]; simp [hi])
    · intro i Q hQ hi
      by_cases hic : i = c
      · subst hic
        simp only at hQ
        rw [hp] at hQ; cases hQ; exact hx
      · exact hb.closed i Q hQ (by rw [hl]; simp [hic, hi])
    · have := hb.held
      rw [hl] at this
      simp only [JP.exec, hvals, ofRes] at this ⊢
      exact this.pop (by simp)
    · simp only [JP.exec, hvals, repGot]
      exact ⟨F', { s with values := cs.map ch.rest, dot := .null }, Freeze.refl e F',
        { h2 with dot := .atom _ rfl, values := ⟨by rw [hv]; rfl, rfl⟩ }, rfl⟩

/-! ## Steps of the system -/

mutual
theorem Rep.got {K : Addr → Prop} {h : Heap} : ∀ {x : HV} {v : V}, Rep K h x v →
    Rep (fun a => K a ∧ h.get a ≠ none) h x v
  | _, _, .atom v hv => .atom v hv
  | _, _, .arr r cs vs h1 h2 h3 h4 => .arr r cs vs ⟨h1, by rw [h2]; simp⟩ h2 h3 (RepL.got h4)
  | _, _, .obj a m kvs h1 h2 h3 => .obj a m kvs ⟨h1, by rw [h2]; simp⟩ h2 (RepM.got h3)
theorem RepL.got {K : Addr → Prop} {h : Heap} : ∀ {xs : List HV} {vs : List V}, RepL K h xs vs →
    RepL (fun a => K a ∧ h.get a ≠ none) h xs vs
  | _, _, .nil => .nil
  | _, _, .cons x v xs vs h1 h2 => .cons x v xs vs (Rep.got h1) (RepL.got h2)
theorem RepM.got {K : Addr → Prop} {h : Heap} : ∀ {xs : List (Bytes × HV)} {vs : List (Bytes × V)}, RepM K h xs vs →
    RepM (fun a => K a ∧ h.get a ≠ none) h xs vs
  | _, _, .nil => .nil
  | _, _, .cons k x v xs vs h1 h2 => .cons k x v xs vs (Rep.got h1) (RepM.got h2)
end

/-- What the caller knows is frozen. -/
theorem SysInv.known {env : Env} {y : Sys} {F : Addr → Prop} {G : Nat → Ghost} (hi : SysInv env y F G) {a : Addr}
    (hk : y.Known a) (hg : y.heap.get a ≠ none) : F a := by
  rcases hk with h0 | ⟨E, hE, hd⟩
  · exact hi.2.1 a h0 hg
  · rcases (hi.2.2 _ E hE).2 with ⟨hnd, _⟩ | ⟨_, ch, W, hb, ho, hc⟩
    · exact absurd hd hnd
    · exact ho a rfl hg

/-- What a step leaves: the invariant, and all that was frozen. -/
structure Kept (env : Env) (y z : Sys) (F F' : Addr → Prop) (G G' : Nat → Ghost) : Prop where
  inv : SysInv env z F' G'
  mono : ∀ a, F a → F' a
  frozen : ∀ a, F a → z.heap.get a = y.heap.get a
  track : ∀ e E, y.evals e = some E → ∃ E', z.evals e = some E' ∧ E'.prog = E.prog ∧ E'.root = E.root ∧
    E'.oracle = E.oracle ∧ (G' e).p = (G e).p ∧ (G' e).v = (G e).v ∧
    ((E' = E ∧ (G' e).μ = (G e).μ) ∨ Lower env E.oracle (G e).p (G e).v (G' e).μ (G e).μ)

theorem inv_estep {env : Env} {grow : Nat → Nat} {e : Nat} {y z : Sys} {F : Addr → Prop} {G : Nat → Ghost}
    (hi : SysInv env y F G) (hs : EStep env grow e y z) :
    ∃ F' G', Kept env y z F F' G G' ∧ ∃ E, y.evals e = some E ∧ Lower env E.oracle (G e).p (G e).v (G' e).μ (G e).μ := by
  obtain ⟨hF, h0, hE⟩ := hi
  obtain ⟨E, E', h', hEe, hst, rfl⟩ := hs
  obtain ⟨he0, hinv⟩ := hE e E hEe
  obtain ⟨h1, h2, hsame, F', μ', h3, h4, h5, h6⟩ := after_step hF hinv hst
  refine ⟨F', fun i => if i = e then ⟨(G e).p, (G e).v, μ'⟩ else G i, ⟨⟨h4, ?_, ?_⟩, h3.mono, h2, ?_⟩, E, hEe, ?_⟩
  · intro a ha hg
    refine h3.mono a (h0 a ha ?_)
    have : h' a.owner = y.heap a.owner := h1 _ (by rw [ha]; exact fun h => he0 h.symm)
    simp only [Sys.update, Heap.get, this] at hg ⊢
    exact hg
  · intro e' E'' hE''
    simp only [Sys.update] at hE''
    split at hE''
    · rename_i hee
      subst hee
      cases hE''
      simpa using ⟨he0, h5⟩
    · rename_i hee
      obtain ⟨he0', hinv'⟩ := hE e' E'' hE''
      simp only [hee, if_false]
      refine ⟨he0', hinv'.agree ⟨h1 e' hee, ?_, h2, h3.mono, h4⟩⟩
      intro a ha
      constructor
      · intro hx
        rcases h3.own a hx with hx | hx
        · exact hx
        · exact absurd (ha.symm.trans hx) hee
      · exact h3.mono a
  · intro i D hD
    by_cases hie : i = e
    · subst hie
      rw [hEe] at hD
      cases hD
      refine ⟨E', by simp [Sys.update], hsame.1, hsame.2.1, hsame.2.2, by simp, by simp, .inr ?_⟩
      simpa using h6
    · exact ⟨D, by simp [Sys.update, hie, hD], rfl, rfl, rfl, by simp [hie], by simp [hie], .inl ⟨rfl, by simp [hie]⟩⟩
  · simpa using h6

/-- The evaluation as it is called. -/
def called (prog : Addr) (root : HV) (oracle : Oracle) : Eval := ⟨prog, root, oracle, begin root, []⟩

theorem inv_call {env : Env} {y : Sys} {F : Addr → Prop} {G : Nat → Ghost} (hi : SysInv env y F G) {e : Nat}
    (he : e ≠ 0) (hn : y.evals e = none) {prog : Addr} {p : Program} (hk : y.Known prog)
    (hp : y.heap.get prog = some (.prog p)) {root : HV} {v : V} (hr : Rep y.Known y.heap root v) (oracle : Oracle) :
    ∃ μ, Kept env y (y.update e (called prog root oracle) y.heap) F F G (fun i => if i = e then ⟨p, v, μ⟩ else G i) := by
  obtain ⟨hF, h0, hE⟩ := hi
  refine ⟨⟨.inl (.init v), 0, begin root, 0⟩, ⟨hF, h0, ?_⟩, fun _ h => h, fun _ _ => rfl, ?_⟩
  · intro e' E' hE'
    simp only [Sys.update] at hE'
    split at hE'
    · rename_i hee
      subst hee
      cases hE'
      simp only [if_true]
      refine ⟨he, .inl ⟨fun h => h, ?_⟩⟩
      have hkn : ∀ a, y.Known a ∧ y.heap.get a ≠ none → F a := fun a ha => SysInv.known ⟨hF, h0, hE⟩ ha.1 ha.2
      have hroot : Rep F y.heap root v := hr.got.mono hkn (fun _ _ => rfl)
      have hb : Base env F y.heap (called prog root oracle) p v ⟨[], fun _ => []⟩ (fun _ => 0) (.inl (.init v)) := by
        refine ⟨hkn _ ⟨hk, by show y.heap.get prog ≠ none; rw [hp]; simp⟩, hp, hroot, .init, List.nodup_nil, ?_, ?_, ?_, .inl ⟨rfl, rfl, rfl⟩⟩
        · intro c hc; cases hc
        · intro c P hP; simp [called] at hP
        · intro c P hP; simp [called] at hP
      exact ⟨⟨[], fun _ => []⟩, fun _ => 0, hb, good_begin (ch := ⟨[], fun _ => []⟩) hF hroot, rfl, rfl⟩
    · rename_i hee
      simp only [hee, if_false]
      exact hE e' E' hE'
  · intro i D hD
    have hie : i ≠ e := by
      rintro rfl
      rw [hn] at hD; cases hD
    exact ⟨D, by simp [Sys.update, hie, hD], rfl, rfl, rfl, by simp [hie], by simp [hie], .inl ⟨rfl, by simp [hie]⟩⟩

theorem inv_step {env : Env} {grow : Nat → Nat} {y z : Sys} {F : Addr → Prop} {G : Nat → Ghost}
    (hi : SysInv env y F G) (hs : Step env grow y z) : ∃ F' G', Kept env y z F F' G G' := by
  cases hs with
  | build o =>
    obtain ⟨hF, h0, hE⟩ := hi
    have hv : FValid (fun a => F a ∨ a = y.heap.fresh 0) (y.heap.alloc 0 o) := by
      rintro a (ha | rfl)
      · rw [get_alloc]
        split
        · simp
        · exact hF a ha
      · rw [get_alloc]; simp
    have hk : ∀ a, F a → (y.heap.alloc 0 o).get a = y.heap.get a := by
      intro a ha
      rw [get_alloc]
      have : a ≠ y.heap.fresh 0 := fun hx => hF a ha (by rw [hx]; exact get_fresh _ _)
      simp [this]
    refine ⟨fun a => F a ∨ a = y.heap.fresh 0, G, ⟨hv, ?_, ?_⟩, fun _ h => .inl h, hk,
      fun e E hE => ⟨E, hE, rfl, rfl, rfl, rfl, rfl, .inl ⟨rfl, rfl⟩⟩⟩
    · intro a ha hg
      by_cases hx : a = y.heap.fresh 0
      · exact .inr hx
      · simp only [get_alloc, hx, if_false] at hg
        exact .inl (h0 a ha hg)
    · intro e E he
      obtain ⟨he0, hinv⟩ := hE e E he
      refine ⟨he0, hinv.agree ⟨?_, ?_, hk, fun _ h => .inl h, hv⟩⟩
      · simp [Heap.alloc, he0]
      · intro a ha
        constructor
        · rintro (h1 | rfl)
          · exact h1
          · exact absurd ha.symm he0
        · exact .inl
  | call e he hn prog p hk hp root v hr oracle =>
    obtain ⟨μ, hμ⟩ := inv_call hi he hn hk hp hr oracle
    exact ⟨F, _, hμ⟩
  | eval e E E' h' hEe hst =>
    obtain ⟨F', G', hK, _⟩ := inv_estep hi ⟨E, E', h', hEe, hst, rfl⟩
    exact ⟨F', G', hK⟩

theorem inv_empty (env : Env) (G : Nat → Ghost) : SysInv env Sys.empty (fun _ => False) G :=
  ⟨fun _ h => h.elim, fun a _ hg => absurd rfl hg, fun _ _ h => by cases h⟩

instance : Inhabited Ghost := ⟨⟨[], []⟩, .null, ⟨.inr .stuck, 0, .ret .stuck, 0⟩⟩

theorem inv_steps {env : Env} {grow : Nat → Nat} {x y : Sys} {F : Addr → Prop} {G : Nat → Ghost}
    (hi : SysInv env x F G) (hs : Steps env grow x y) :
    ∃ F' G', SysInv env y F' G' ∧ (∀ a, F a → F' a) ∧ (∀ a, F a → y.heap.get a = x.heap.get a) ∧
      ∀ e E, x.evals e = some E → ∃ E', y.evals e = some E' ∧ E'.prog = E.prog ∧ E'.root = E.root ∧
        E'.oracle = E.oracle ∧ (G' e).p = (G e).p ∧ (G' e).v = (G e).v := by
  induction hs with
  | refl => exact ⟨F, G, hi, fun _ h => h, fun _ _ => rfl, fun e E h => ⟨E, h, rfl, rfl, rfl, rfl, rfl⟩⟩
  | step y z _ h2 ih =>
    obtain ⟨F1, G1, g1, g2, g3, g4⟩ := ih
    obtain ⟨F2, G2, k⟩ := inv_step g1 h2
    refine ⟨F2, G2, k.inv, fun a h => k.mono a (g2 a h), fun a h => by rw [k.frozen a (g2 a h), g3 a h], ?_⟩
    intro e E hE
    obtain ⟨E1, a1, a2, a3, a4, a5, a6⟩ := g4 e E hE
    obtain ⟨E2, b1, b2, b3, b4, b5, b6, _⟩ := k.track e E1 a1
    exact ⟨E2, b1, b2.trans a2, b3.trans a3, b4.trans a4, b5.trans a5, b6.trans a6⟩

theorem inv_reachable {env : Env} {grow : Nat → Nat} {y : Sys} (hs : Steps env grow Sys.empty y) :
    ∃ F G, SysInv env y F G := by
  obtain ⟨F, G, h, _⟩ := inv_steps (inv_empty env default) hs
  exact ⟨F, G, h⟩

end JP.Conc
