import Verif.Proof.Conc.Producer
/-!
An order of `Model/Conc.lean`, up to the point where it meets a producer, against a step of `Model/Machine.lean`.
-/
namespace JP.Conc

/-- What becomes of a step of the machine. -/
def ofRes : Res RErr MState → MState ⊕ Res RErr GoSlice
  | .ok s => .inl s
  | .err e => .inr (.err e)
  | .panic m => .inr (.panic m)
  | .stuck => .inr .stuck

/-- One turn of the loop of `run`: a further state, or the result. -/
def vnext (env : Env) (oracle : Oracle) (p : Program) (root : V) (s : MState) : MState ⊕ Res RErr GoSlice :=
  match p.orders[s.pc]? with
  | none => .inr (.ok s.result)
  | some o => ofRes (step env oracle p root o s)

/-- What a step adds to the channels that the machine holds. -/
def begins (s : MState) : MState ⊕ Res RErr GoSlice → Nat
  | .inl s' => s'.values.length - s.values.length
  | .inr _ => 0

/-- What `run` comes to, and the number of loops that it has begun by then. -/
inductive Tally (env : Env) (oracle : Oracle) (p : Program) (root : V) : MState ⊕ Res RErr GoSlice → Nat → Prop where
  | init : Tally env oracle p root (.inl (.init root)) 0
  | step (s : MState) (n : Nat) (h : Tally env oracle p root (.inl s) n) :
      Tally env oracle p root (vnext env oracle p root s) (n + begins s (vnext env oracle p root s))

/-- An evaluation on its way to `T` has started `n` producers and has `l` channels. -/
def Held (env : Env) (oracle : Oracle) (p : Program) (root : V) (T : MState ⊕ Res RErr GoSlice) (n l : Nat) : Prop :=
  (T = .inl (.init root) ∧ n = 0 ∧ l = 0) ∨
  ∃ s m, Tally env oracle p root (.inl s) m ∧ T = vnext env oracle p root s ∧
    ((n = m ∧ l = s.values.length) ∨ ∃ s', T = .inl s' ∧ l = s'.values.length ∧ n = m + (s'.values.length - s.values.length))

theorem Held.next {env : Env} {oracle : Oracle} {p : Program} {root : V} {s : MState} {n l : Nat}
    (h : Held env oracle p root (.inl s) n l) (hl : l = s.values.length) : Tally env oracle p root (.inl s) n := by
  rcases h with ⟨h1, rfl, -⟩ | ⟨s0, m, h1, h2, h3⟩
  · rw [h1]; exact .init
  · have := Tally.step s0 m h1
    rw [← h2] at this
    simp only [begins] at this
    rcases h3 with ⟨h3, h4⟩ | ⟨s', h3, -, h5⟩
    · rw [show s.values.length - s0.values.length = 0 by omega, Nat.add_zero] at this
      rw [h3]; exact this
    · cases h3
      rw [h5]; exact this

theorem Held.start {env : Env} {oracle : Oracle} {p : Program} {root : V} {s : MState} {n l : Nat}
    (h : Held env oracle p root (.inl s) n l) (hl : l + 1 = s.values.length) :
    Held env oracle p root (.inl s) (n + 1) (l + 1) := by
  rcases h with ⟨h1, -, h2⟩ | ⟨s0, m, h1, h2, h3⟩
  · cases h1
    simp [MState.init] at hl
  · refine .inr ⟨s0, m, h1, h2, .inr ⟨s, rfl, hl, ?_⟩⟩
    rcases h3 with ⟨h3, h4⟩ | ⟨s', h3, h4, h5⟩
    · omega
    · cases h3
      omega

theorem Held.pop {env : Env} {oracle : Oracle} {p : Program} {root : V} {s : MState} {n l : Nat}
    (h : Held env oracle p root (.inl s) n (l + 1)) (hl : l = s.values.length) :
    Held env oracle p root (.inl s) n l := by
  rcases h with ⟨h1, -, h2⟩ | ⟨s0, m, h1, h2, h3⟩
  · omega
  · refine .inr ⟨s0, m, h1, h2, .inr ⟨s, rfl, hl, ?_⟩⟩
    rcases h3 with ⟨h3, h4⟩ | ⟨s', h3, h4, h5⟩
    · omega
    · cases h3
      omega

/-- What `run` comes to. -/
inductive Reach (env : Env) (oracle : Oracle) (p : Program) (root : V) : MState ⊕ Res RErr GoSlice → Prop where
  | init : Reach env oracle p root (.inl (.init root))
  | step (s : MState) (h : Reach env oracle p root (.inl s)) :
      Reach env oracle p root (vnext env oracle p root s)

/-- The result from there. -/
def runFrom (env : Env) (oracle : Oracle) (p : Program) (root : V) : MState ⊕ Res RErr GoSlice → Option (Res RErr GoSlice)
  | .inl s => run env oracle p root s
  | .inr r => some r

theorem run_vnext (env : Env) (oracle : Oracle) (p : Program) (root : V) (s : MState) :
    run env oracle p root s = runFrom env oracle p root (vnext env oracle p root s) := by
  rw [run]
  unfold vnext
  cases p.orders[s.pc]? with
  | none => rfl
  | some o =>
    simp only
    cases step env oracle p root o s <;> rfl

theorem Reach.run {env : Env} {oracle : Oracle} {p : Program} {root : V} {T : MState ⊕ Res RErr GoSlice}
    (hr : Reach env oracle p root T) : JP.run env oracle p root (.init root) = runFrom env oracle p root T := by
  induction hr with
  | init => rfl
  | step s _ ih => rw [ih]; exact run_vnext env oracle p root s

/-- The evaluation came to `T` by a step from a state in which the channels had this left to deliver. -/
def From (env : Env) (oracle : Oracle) (p : Program) (root : V) (T : MState ⊕ Res RErr GoSlice)
    (vals : List (List V)) : Prop :=
  ∃ s, Reach env oracle p root (.inl s) ∧ T = vnext env oracle p root s ∧ s.values = vals

/-- What an evaluation that is running may come to next: `T` is what the step of `Machine.lean` comes to.
`k` counts the meetings with a producer that are still to come, at most. -/
def Good (env : Env) (oracle : Oracle) (p : Program) (root : V) (e : Nat) (F : Addr → Prop) (ch : Chans)
    (k : Nat) (T : MState ⊕ Res RErr GoSlice) : Res RErr Ctl → Heap → Prop
  | .ok (.next hs), h => ∃ F' s, Freeze e F F' ∧ StRel e F' ch h hs s ∧ T = .inl s
  | .ok (.start walk hs), h => ∃ F' s r, Freeze e F F' ∧ StRel e F' ch h hs s ∧ hs.out = some r ∧ k = 2 ∧
      T = .inl { s with
        out := some [],
        dot := (if walk then JP.walker (oracle (s.tick - 1)) 0 s.out.elems
          else stepping (oracle (s.tick - 1)) 0 s.out.elems).headD .null,
        values := (if walk then JP.walker (oracle (s.tick - 1)) 0 s.out.elems
          else stepping (oracle (s.tick - 1)) 0 s.out.elems).tail :: s.values }
  | .ok (.await hs), h => ∃ F' s c cs, Freeze e F F' ∧ StRel e F' ch h hs s ∧ ch.live = c :: cs ∧ k = 1 ∧
      T = .inl { s with dot := (ch.rest c).headD .null, values := (ch.rest c).tail :: cs.map ch.rest }
  | .ok (.rep o hs), h => ∃ F' s c cs, Freeze e F F' ∧ StRel e F' ch h hs s ∧ ch.live = c :: cs ∧ k = 2 ∧
      T = ofRes (JP.exec env oracle p root o .rep s)
  | .ok (.halt r), h => ∃ F' vs, Freeze e F F' ∧ FValid F' h ∧ OutRep e F' h (some r) (some vs) ∧
      T = .inr (.ok (some vs)) ∧ From env oracle p root T (ch.live.map ch.rest)
  | .err x, _ => T = .inr (.err x) ∧ From env oracle p root T (ch.live.map ch.rest)
  | .panic m, _ => T = .inr (.panic m)
  | .stuck, _ => T = .inr .stuck

section
variable {env : Env} {oracle : Oracle} {p : Program} {root : HV} {rootv : V} {e : Nat} {F : Addr → Prop} {ch : Chans}
  {T : MState ⊕ Res RErr GoSlice} {h : Heap} {hs : HState} {s : MState} {grow : Nat → Nat} {prog : Addr}

theorem good_of_post {r : Res RErr MState} {c : Res RErr Ctl} {h : Heap} {k : Nat}
    (hf : ∀ x, r = .err x → From env oracle p rootv (.inr (.err x)) (ch.live.map ch.rest))
    (hp : Post r (NextP e F ch) c h) : Good env oracle p rootv e F ch k (ofRes r) c h := by
  cases c with
  | ok c =>
    obtain ⟨s', rfl, F', hs', h1, rfl, h2⟩ := hp
    exact ⟨F', s', h1, h2, rfl⟩
  | err x => cases hp; exact ⟨rfl, hf x rfl⟩
  | panic m => cases hp; rfl
  | stuck => cases hp; rfl

theorem sim_good {r : Res RErr MState} {code : PR Ctl} {k : Nat}
    (hf : ∀ x, r = .err x → From env oracle p rootv (.inr (.err x)) (ch.live.map ch.rest))
    (hp : wp e F (Post r (NextP e F ch)) code h) :
    wp e F (Good env oracle p rootv e F ch k (ofRes r)) code h :=
  wp_mono (fun _ _ h => good_of_post hf h) _ _ hp

omit hs s h in
theorem branch_no_err {size : Nat} {target : Int64} {s : MState} {x : RErr} : JP.branch size target s ≠ .err x := by
  unfold JP.branch
  split <;> simp

theorem sim_branch (hr : StRel e F ch h hs s) (hp : F prog) (hg : h.get prog = some (.prog p)) (target : Int64) :
    wp e F (Post (JP.branch p.orders.length target s) (NextP e F ch)) (branch prog target hs) h := by
  refine wp_size (.inr hp) hg ?_
  unfold JP.branch
  split
  · exact rfl
  · exact next_ok { hr with pc := rfl }

theorem good_looptop {walk : Bool} {o : Order} (hr : StRel e F ch h hs s) (hp : F prog)
    (hg : h.get prog = some (.prog p)) :
    wp e F (Good env oracle p rootv e F ch 2 (ofRes (match o.pc with
      | none => .panic "pc must be small int"
      | some epc => JP.looptop p.orders.length epc
          (if walk then JP.walker (oracle (s.tick - 1)) 0 s.out.elems
            else stepping (oracle (s.tick - 1)) 0 s.out.elems) s))) (looptop prog walk o hs) h := by
  unfold looptop JP.looptop
  cases o.pc with
  | none => exact rfl
  | some epc =>
    simp only
    have hl := hr.out.len
    cases he : s.out.elems with
    | nil =>
      rw [he] at hl
      simp only [hl, List.length_nil, if_true, List.isEmpty_nil]
      exact sim_good (fun x h => absurd h branch_no_err) (sim_branch hr hp hg epc)
    | cons x xs =>
      rw [he] at hl
      have : ¬lenOf hs.out = 0 := by rw [hl]; simp
      simp only [this, if_false, List.isEmpty_cons, Bool.false_eq_true]
      cases ho : hs.out with
      | none => rw [ho] at this; exact absurd rfl this
      | some r => exact ⟨F, s, r, Freeze.refl e F, hr, ho, rfl, by rw [he]; rfl⟩

theorem good_order (hre : Reach env oracle p rootv (.inl s)) (hr : StRel e F ch h hs s) (hp : F prog) (hg : h.get prog = some (.prog p))
    (hroot : Rep F h root rootv) :
    wp e F (Good env oracle p rootv e F ch 2 (vnext env oracle p rootv s)) (order env grow oracle prog root hs) h := by
  have hfrom : ∀ T, T = vnext env oracle p rootv s → From env oracle p rootv T (ch.live.map ch.rest) :=
    fun T hT => ⟨s, hre, hT, hr.values.2⟩
  refine wp_order (.inr hp) hg ?_
  rw [hr.pc]
  unfold vnext at hfrom ⊢
  cases ho : p.orders[s.pc]? with
  | none =>
    simp only [ho] at hfrom ⊢
    cases hout : hs.out with
    | none =>
      have hsout : s.out = none := by
        have := hr.out
        rw [hout] at this
        cases hs' : s.out with
        | none => rfl
        | some vs => rw [hs'] at this; exact this.elim
      simp only
      refine wp_seq (wp_emptySlice hr.valid) ?_
      rintro r h' ⟨hE, h1, h2⟩
      refine ⟨F, [], Freeze.refl e F, hE.valid hr.valid, h1, ?_, hfrom _ rfl⟩
      simp [MState.result, hsout]
    | some r =>
      have := hr.out
      rw [hout] at this
      cases hs' : s.out with
      | none => rw [hs'] at this; exact this.elim
      | some vs =>
        rw [hs'] at this
        exact ⟨F, vs, Freeze.refl e F, hr.valid, this, by simp [MState.result, hs'], hfrom _ rfl⟩
  | some o =>
    simp only [ho] at hfrom ⊢
    have hr1 : StRel e F ch h { hs with pc := s.pc + 1 } { s with pc := s.pc + 1 } := { hr with pc := rfl }
    unfold step at hfrom ⊢
    cases hop : Op.ofNat? o.opNum with
    | none =>
      simp only [hop] at hfrom ⊢
      exact ⟨rfl, hfrom _ rfl⟩
    | some op =>
      simp only [hop] at hfrom ⊢
      by_cases hn : NoLoop op
      · exact sim_good (fun x hx => hfrom _ (by rw [hx]; rfl)) (sim_exec hn hr1 hp hg hroot)
      · cases op <;> first | (exfalso; exact hn trivial) | skip
        case for_ =>
          exact good_looptop (walk := false) (o := o) hr1.withTick hp hg
        case nest =>
          exact good_looptop (walk := true) (o := o) hr1.withTick hp hg
        case rep =>
          unfold exec
          simp only
          split
          · rename_i hl
            have : s.values = [] := by rw [hr.values.2, ← hr.values.1, hl]; rfl
            simp only [JP.exec, this]
            exact rfl
          · rename_i c cs hl
            exact ⟨F, _, c, cs, Freeze.refl e F, hr1, by rw [← hr.values.1]; exact hl, rfl, rfl⟩

theorem good_begin (hv : FValid F h) (hroot : Rep F h root rootv) :
    wp e F (Good env oracle p rootv e F ⟨[], ch.rest⟩ 0 (.inl (.init rootv))) (begin root) h := by
  refine wp_make ?_
  have hE := ext_alloc e (fun _ => False) h (.cells [root])
  refine ⟨F, _, Freeze.refl e F, ⟨?_, .atom _ rfl, ⟨rfl, rfl⟩, fun _ _ h => not_arrOf_none h, rfl, rfl, ⟨rfl, rfl⟩,
    hE.valid hv⟩, rfl⟩
  refine ⟨[root], ⟨rfl, fun hf => hv _ hf (get_fresh h e), by rw [get_alloc]; simp, rfl, rfl, Nat.le_refl _⟩, ?_⟩
  exact .cons _ _ _ _ (hroot.ext hE hv (fun _ h => h.elim)) .nil

end

/-! ## Other evaluations -/

theorem Agree.freeze {e : Nat} {F F' G : Addr → Prop} {h h' : Heap} (g : Agree e F h G h') (hf : Freeze e F F')
    (hv : FValid F' h) : Agree e F' h (fun a => G a ∨ F' a) h' where
  own := g.own
  ownF := by
    intro a ha
    constructor
    · rintro (h1 | h1)
      · exact hf.mono a ((g.ownF a ha).1 h1)
      · exact h1
    · exact .inr
  frozen := by
    intro a ha
    rcases hf.own a ha with h1 | h1
    · exact g.frozen a h1
    · exact get_own g.own h1
  mono := fun _ h => .inr h
  valid := by
    rintro a (h1 | h1)
    · exact g.valid a h1
    · have : h'.get a = h.get a := by
        rcases hf.own a h1 with h2 | h2
        · exact g.frozen a h2
        · exact get_own g.own h2
      rw [this]; exact hv a h1

theorem Agree.freezeG {e : Nat} {F F' G : Addr → Prop} {h h' : Heap} (_ : Agree e F h G h') (hf : Freeze e F F') 
    (hg : ∀ a, F a → G a) : Freeze e G (fun a => G a ∨ F' a) :=
  ⟨fun _ h => .inl h, fun a h => by
    rcases h with h1 | h1
    · exact .inl h1
    · exact (hf.own a h1).imp (hg a) id⟩

theorem Rep.agree {e : Nat} {F G : Addr → Prop} {h h' : Heap} (g : Agree e F h G h') {x : HV} {v : V}
    (hr : Rep F h x v) : Rep G h' x v := hr.mono g.mono g.frozen

theorem Own.agree {e : Nat} {F G : Addr → Prop} {h h' : Heap} (g : Agree e F h G h') {r : SRef} {cs : List HV}
    (ho : Own e F h r cs) : Own e G h' r cs :=
  { ho with free := fun hx => ho.free ((g.ownF _ ho.owner).1 hx), get := by rw [get_own g.own ho.owner]; exact ho.get }

theorem OutRep.agree {e : Nat} {F G : Addr → Prop} {h h' : Heap} (g : Agree e F h G h') {o : Option SRef}
    {gs : GoSlice} (ho : OutRep e F h o gs) : OutRep e G h' o gs := by
  cases o with
  | none => cases gs with
    | none => trivial
    | some vs => exact ho.elim
  | some r => cases gs with
    | none => exact ho.elim
    | some vs =>
      obtain ⟨cs, h1, h2⟩ := ho
      exact ⟨cs, h1.agree g, h2.mono g.mono g.frozen⟩

theorem StRel.agree {e : Nat} {F G : Addr → Prop} {h h' : Heap} (g : Agree e F h G h') {ch : Chans} {hs : HState}
    {s : MState} (hr : StRel e F ch h hs s) : StRel e G ch h' hs s where
  out := hr.out.agree g
  dot := hr.dot.agree g
  stk := by
    have := hr.stk
    revert this
    cases hs.stack with
    | none => exact fun h => h
    | some r =>
      rintro ⟨cs, h3, h4, h5⟩
      exact ⟨cs, h3.agree g, h4, h5.mono g.mono g.frozen⟩
  ne := hr.ne
  pc := hr.pc
  tick := hr.tick
  values := hr.values
  valid := g.valid

theorem Good.agree {env : Env} {oracle : Oracle} {p : Program} {rootv : V} {e : Nat} {F G : Addr → Prop} {ch : Chans}
    {k : Nat} {T : MState ⊕ Res RErr GoSlice} {h h' : Heap} (g : Agree e F h G h') {c : Res RErr Ctl}
    (hc : Good env oracle p rootv e F ch k T c h) : Good env oracle p rootv e G ch k T c h' := by
  cases c with
  | ok c =>
    cases c with
    | next hs =>
      obtain ⟨F', s, h1, h2, h3⟩ := hc
      exact ⟨_, s, g.freezeG h1 g.mono, h2.agree (g.freeze h1 h2.valid), h3⟩
    | start walk hs =>
      obtain ⟨F', s, r, h1, h2, h3⟩ := hc
      exact ⟨_, s, r, g.freezeG h1 g.mono, h2.agree (g.freeze h1 h2.valid), h3⟩
    | await hs =>
      obtain ⟨F', s, c, cs, h1, h2, h3⟩ := hc
      exact ⟨_, s, c, cs, g.freezeG h1 g.mono, h2.agree (g.freeze h1 h2.valid), h3⟩
    | rep o hs =>
      obtain ⟨F', s, c, cs, h1, h2, h3⟩ := hc
      exact ⟨_, s, c, cs, g.freezeG h1 g.mono, h2.agree (g.freeze h1 h2.valid), h3⟩
    | halt r =>
      obtain ⟨F', vs, h1, h2, h3, h4⟩ := hc
      exact ⟨_, vs, g.freezeG h1 g.mono, (g.freeze h1 h2).valid, h3.agree (g.freeze h1 h2), h4⟩
  | err x => exact hc
  | panic m => exact hc
  | stuck => exact hc

end JP.Conc
