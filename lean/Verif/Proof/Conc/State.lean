import Verif.Proof.Conc.Select
/-!
The machine state of `Model/Conc.lean` against that of `Model/Machine.lean`: pushing and popping.
-/
namespace JP.Conc

/-- The live part of the stack, oldest first, is `vs` (top first) reversed. -/
def StackRep (e : Nat) (F : Addr → Prop) (h : Heap) : Option SRef → Nat → List V → Prop
  | none, sp, vs => sp = 0 ∧ vs = []
  | some r, sp, vs => ∃ cs, Own e F h r cs ∧ sp ≤ r.len ∧ RepL F h (cs.take sp) vs.reverse

/-- The channels of an evaluation: those on the stack `m.values`, top first, and what each channel has yet
to deliver. -/
structure Chans where
  live : List Nat
  rest : Nat → List V

/-- The machine in memory stands for the machine of `Machine.lean`. -/
structure StRel (e : Nat) (F : Addr → Prop) (ch : Chans) (h : Heap) (hs : HState) (s : MState) :
    Prop where
  out : OutRep e F h hs.out s.out
  dot : Rep F h hs.dot s.dot
  stk : StackRep e F h hs.stack hs.sp s.stack
  ne : ∀ a, ArrOf hs.out a → ¬ArrOf hs.stack a
  pc : hs.pc = s.pc
  tick : hs.tick = s.tick
  values : hs.values = ch.live ∧ s.values = ch.live.map ch.rest
  valid : FValid F h

theorem arrOf_some {r : SRef} {a : Addr} : ArrOf (some r) a ↔ a = r.arr :=
  ⟨fun ⟨_, h1, h2⟩ => by cases h1; exact h2, fun h => ⟨r, rfl, h⟩⟩

theorem not_arrOf_none {a : Addr} : ¬ArrOf none a := fun ⟨_, h1, _⟩ => by cases h1

theorem StackRep.free {e : Nat} {F : Addr → Prop} {h : Heap} {o : Option SRef} {sp : Nat} {vs : List V}
    (ho : StackRep e F h o sp vs) (a : Addr) (ha : ArrOf o a) : ¬F a := by
  obtain ⟨r, rfl, rfl⟩ := ha
  obtain ⟨cs, h1, _⟩ := ho; exact h1.free

theorem StackRep.got {e : Nat} {F : Addr → Prop} {h : Heap} {o : Option SRef} {sp : Nat} {vs : List V}
    (ho : StackRep e F h o sp vs) (a : Addr) (ha : ArrOf o a) : h.get a ≠ none := by
  obtain ⟨r, rfl, rfl⟩ := ha
  obtain ⟨cs, h1, _⟩ := ho; rw [h1.get]; simp

theorem OutRep.got {e : Nat} {F : Addr → Prop} {h : Heap} {o : Option SRef} {g : GoSlice}
    (ho : OutRep e F h o g) (a : Addr) (ha : ArrOf o a) : h.get a ≠ none := by
  obtain ⟨r, rfl, rfl⟩ := ha
  obtain ⟨cs, h1, _⟩ := ho.elems; rw [h1.get]; simp

theorem StackRep.ext {e : Nat} {X F : Addr → Prop} {h0 h : Heap} (hE : Ext e X h0 h) (hF : FValid F h0)
    (hX : ∀ a, X a → ¬F a) {o : Option SRef} {sp : Nat} {vs : List V} (ho : StackRep e F h0 o sp vs)
    (hne : ∀ a, ArrOf o a → ¬X a) : StackRep e F h o sp vs := by
  cases o with
  | none => exact ho
  | some r =>
    obtain ⟨cs, h1, h2, h3⟩ := ho
    refine ⟨cs, { h1 with get := ?_ }, h2, h3.ext hE hF hX⟩
    rw [hE.kept r.arr (by rw [h1.get]; simp) (hne _ ⟨r, rfl, rfl⟩), h1.get]

theorem StackRep.sp {e : Nat} {F : Addr → Prop} {h : Heap} {o : Option SRef} {sp : Nat} {vs : List V}
    (ho : StackRep e F h o sp vs) : sp = vs.length := by
  cases o with
  | none => obtain ⟨h1, h2⟩ := ho; simp [h1, h2]
  | some r =>
    obtain ⟨cs, h1, h2, h3⟩ := ho
    have := h3.length
    have h4 := h1.cap; have h5 := h1.len
    simp at this; omega

/-- Freezing objects other than the stack and the output set. -/
theorem StRel.freeze {e : Nat} {F F' : Addr → Prop} {ch : Chans} {h : Heap} {hs : HState} {s : MState}
    (hr : StRel e F ch h hs s) (hf : ∀ a, F a → F' a) (hv : FValid F' h)
    (h1 : ∀ a, ArrOf hs.out a → ¬F' a) (h2 : ∀ a, ArrOf hs.stack a → ¬F' a) : StRel e F' ch h hs s where
  out := hr.out.freeze hf h1
  dot := hr.dot.mono hf (fun _ _ => rfl)
  stk := by
    have := hr.stk
    revert this
    cases hst : hs.stack with
    | none => exact fun h => h
    | some r =>
      rintro ⟨cs, h3, h4, h5⟩
      exact ⟨cs, { h3 with free := h2 _ (by rw [hst]; exact ⟨r, rfl, rfl⟩) }, h4, h5.mono hf (fun _ _ => rfl)⟩
  ne := hr.ne
  pc := hr.pc
  tick := hr.tick
  values := hr.values
  valid := hv

/-- Changes to other objects do not matter. -/
theorem StRel.ext {e : Nat} {F X : Addr → Prop} {ch : Chans} {h h' : Heap} {hs : HState} {s : MState}
    (hr : StRel e F ch h hs s) (hE : Ext e X h h') (hX : ∀ a, X a → ¬F a)
    (h1 : ∀ a, ArrOf hs.out a → ¬X a) (h2 : ∀ a, ArrOf hs.stack a → ¬X a) : StRel e F ch h' hs s where
  out := hr.out.ext hE hr.valid hX h1
  dot := hr.dot.ext hE hr.valid hX
  stk := hr.stk.ext hE hr.valid hX h2
  ne := hr.ne
  pc := hr.pc
  tick := hr.tick
  values := hr.values
  valid := hE.valid hr.valid

/-- A new output set. -/
theorem StRel.setOut {e : Nat} {F X : Addr → Prop} {ch : Chans} {h h' : Heap} {hs : HState} {s : MState}
    {o : Option SRef} {g : GoSlice} (hr : StRel e F ch h hs s) (ha : Accum e F X h h' o g)
    (hX : ∀ a, X a → ArrOf hs.out a) : StRel e F ch h' { hs with out := o } { s with out := g } where
  out := ha.rep
  dot := hr.dot.ext ha.ext hr.valid (fun a h => hr.out.free a (hX a h))
  stk := hr.stk.ext ha.ext hr.valid (fun a h => hr.out.free a (hX a h))
    (fun a h1 h2 => hr.ne a (hX a h2) h1)
  ne := by
    intro a h1 h2
    rcases ha.new a h1 with h3 | h3
    · exact hr.ne a (hX a h3) h2
    · exact hr.stk.got a h2 h3
  pc := hr.pc
  tick := hr.tick
  values := hr.values
  valid := ha.ext.valid hr.valid

section
variable {e : Nat} {F : Addr → Prop} {ch : Chans} {h : Heap} {hs : HState} {s : MState} {grow : Nat → Nat}

/-- mach/run.go:38-46. -/
theorem wp_push {v : HV} {x : V} (hr : StRel e F ch h hs s) (hv : Rep F h v x) :
    wp e F (Ok fun hs' h' => StRel e F ch h' hs' (s.push x)) (push grow hs v) h := by
  have hsp := hr.stk.sp
  unfold push
  by_cases hge : hs.sp ≥ lenOf hs.stack
  · simp only [hge, if_true]
    have hrep : ∃ g, OutRep e F h hs.stack g ∧ g.elems = s.stack.reverse := by
      have h1 := hr.stk
      cases hst : hs.stack with
      | none => rw [hst] at h1; exact ⟨none, trivial, by simp [h1.2, GoSlice.elems]⟩
      | some r =>
        rw [hst] at h1 hge
        obtain ⟨cs, h2, h3, h4⟩ := h1
        refine ⟨some s.stack.reverse, ⟨cs, h2, ?_⟩, rfl⟩
        have : hs.sp = r.len := by have : r.len ≤ hs.sp := hge; omega
        rw [← this]; exact h4
    obtain ⟨g, h1, h2⟩ := hrep
    refine wp_seq (wp_append hr.valid h1 hv) ?_
    rintro r h' ⟨hE, h3, h4⟩
    have hfree := fun a ha => hr.stk.free a ha
    refine ⟨hr.out.ext hE hr.valid hfree hr.ne, hr.dot.ext hE hr.valid hfree, ?_, ?_, hr.pc, hr.tick, hr.values,
      hE.valid hr.valid⟩
    · obtain ⟨cs, h5, h6⟩ := h3
      refine ⟨cs, h5, Nat.le_refl _, ?_⟩
      simpa [GoSlice.append, MState.push, h2] using h6
    · intro a ha hb
      rw [arrOf_some] at hb
      subst hb
      rcases h4 with h4 | h4
      · exact hr.ne _ ha h4
      · exact hr.out.got _ ha h4
  · simp only [hge, if_false]
    cases hst : hs.stack with
    | none => rw [hst] at hge; simp [lenOf] at hge
    | some r =>
      have h1 := hr.stk
      rw [hst] at hge h1
      obtain ⟨cs, h2, h3, h4⟩ := h1
      simp only [lenOf, ge_iff_le, Nat.not_le] at hge
      have h5 := h2.off; have h6 := h2.cap; have h7 := h2.len
      refine wp_write h2.owner h2.free h2.get (by omega) ?_
      have hE := ext_setCell (e := e) (X := ArrOf hs.stack) h2.get h2.owner (by rw [hst]; exact ⟨r, rfl, rfl⟩)
        (r.off + hs.sp) v
      have hfree := fun a ha => hr.stk.free a ha
      have hne' : ∀ a, ArrOf hs.out a → ¬ArrOf (some r) a := by rw [← hst]; exact hr.ne
      refine ⟨hr.out.ext hE hr.valid hfree hr.ne, hr.dot.ext hE hr.valid hfree, ?_, hne', hr.pc, hr.tick,
        hr.values, hE.valid hr.valid⟩
      refine ⟨cs.set (r.off + hs.sp) v, ⟨h2.owner, h2.free, by rw [get_setCell h2.get]; simp, h5, by simpa using h6,
        h7⟩, by simp only; omega, ?_⟩
      rw [h5, Nat.zero_add]
      rw [take_set_succ (by omega)]
      simp only [MState.push, List.reverse_cons]
      rw [h5, Nat.zero_add] at hE
      exact (h4.ext hE hr.valid hfree).snoc (hv.ext hE hr.valid hfree)

/-- mach/run.go:48-56. -/
theorem wp_pop {x : V} {st : List V} (hr : StRel e F ch h hs s) (hst : s.stack = x :: st) :
    wp e F (Ok fun p h' => Rep F h' p.1 x ∧ StRel e F ch h' p.2 { s with stack := st } ∧
      p.2.out = hs.out ∧ Ext e (ArrOf hs.stack) h h') (pop hs) h := by
  have hsp := hr.stk.sp
  rw [hst] at hsp
  simp only [List.length_cons] at hsp
  unfold pop
  have hne : ¬ hs.sp = 0 := by omega
  simp only [hne, if_false]
  cases hk : hs.stack with
  | none => have := hr.stk; rw [hk] at this; exact absurd this.1 hne
  | some r =>
    have h1 := hr.stk
    rw [hk, hst] at h1
    obtain ⟨cs, h2, h3, h4⟩ := h1
    have h5 := h2.off; have h6 := h2.cap; have h7 := h2.len
    have hx : (x :: st).reverse[hs.sp - 1]? = some x := by
      rw [List.reverse_cons, hsp]; simp
    obtain ⟨v, hv, hvx⟩ := h4.get hx
    have hv' : cs[hs.sp - 1]? = some v := by
      rw [List.getElem?_take] at hv
      split at hv
      · exact hv
      · cases hv
    refine wp_read (.inl h2.owner) (v := v) (by rw [cell_of h2.get, h5, Nat.zero_add]; exact hv') ?_
    refine wp_write h2.owner h2.free h2.get (by omega) ?_
    have hE := ext_setCell (e := e) (X := ArrOf hs.stack) h2.get h2.owner (by rw [hk]; exact ⟨r, rfl, rfl⟩)
      (r.off + (hs.sp - 1)) HV.null
    have hfree := fun a ha => hr.stk.free a ha
    have hne' : ∀ a, ArrOf hs.out a → ¬ArrOf (some r) a := by rw [← hk]; exact hr.ne
    refine ⟨hvx.ext hE hr.valid hfree, ⟨hr.out.ext hE hr.valid hfree hr.ne, hr.dot.ext hE hr.valid hfree, ?_,
      hne', hr.pc, hr.tick, hr.values, hE.valid hr.valid⟩, rfl, by rw [← hk]; exact hE⟩
    refine ⟨cs.set (r.off + (hs.sp - 1)) .null, ⟨h2.owner, h2.free, by rw [get_setCell h2.get]; simp, h5,
      by simpa using h6, h7⟩, by simp only; omega, ?_⟩
    rw [h5, Nat.zero_add, List.take_set, List.set_eq_of_length_le (by simp; omega)]
    have := h4.take (hs.sp - 1)
    rw [List.take_take, Nat.min_eq_left (by omega)] at this
    have h8 : (x :: st).reverse.take (hs.sp - 1) = st.reverse := by
      rw [List.reverse_cons, List.take_append_of_le_length (by simp; omega), List.take_of_length_le (by simp; omega)]
    rw [h8] at this
    rw [h5, Nat.zero_add] at hE
    exact this.ext hE hr.valid hfree

theorem ofNat_le (n : Nat) : (Int64.ofNat n).toInt ≤ n := by
  rw [Int64.toInt_ofNat', Int.bmod_def, show (Int64.size : Nat) = 18446744073709551616 from rfl]
  split <;> omega

/-- mach/run.go:58-70: what is popped is a new array. -/
theorem sim_popN (hr : StRel e F ch h hs s) (n : Int64) :
    wp e F (Post (JP.popN n s.stack) fun p q h' => StRel e F ch h' p.2 { s with stack := q.2 } ∧
      OutRep e F h' (some p.1) (some q.1) ∧ ¬ArrOf p.2.out p.1.arr ∧ ¬ArrOf p.2.stack p.1.arr ∧
      p.2.out = hs.out ∧ p.2.dot = hs.dot) (popN hs n) h := by
  have hsp := hr.stk.sp
  unfold popN JP.popN
  rw [hsp]
  by_cases h1 : Int64.ofNat s.stack.length < n
  · simp only [h1, if_true]; rfl
  simp only [h1, if_false]
  by_cases h2 : n < 0
  · simp only [h2, if_true]; rfl
  simp only [h2, if_false]
  have hk : n.toInt.toNat ≤ s.stack.length := by
    have := ofNat_le s.stack.length
    rw [Int64.lt_iff_toInt_lt] at h1
    omega
  generalize n.toInt.toNat = k at hk
  cases hst : hs.stack with
  | none =>
    have h3 := hr.stk
    rw [hst] at h3
    have hk0 : k = 0 := by rw [h3.2] at hk; simpa using hk
    subst hk0
    refine wp_make ?_
    have hE := ext_alloc e (fun _ => False) h (.cells [])
    refine ⟨_, rfl, ?_, ⟨[], ⟨rfl, ?_, by rw [get_alloc]; simp, rfl, rfl, Nat.le_refl _⟩, ?_⟩, ?_, ?_, rfl, rfl⟩
    · exact hr.ext hE (fun _ h => h.elim) (fun _ _ h => h) (fun _ _ h => h)
    · intro hf; exact hr.valid _ hf (get_fresh h e)
    · simpa using RepL.nil
    · intro ha; exact hr.out.got _ ha (get_fresh h e)
    · intro ha; rw [hst] at ha; exact not_arrOf_none ha
  | some r =>
    have h3 := hr.stk
    rw [hst] at h3
    obtain ⟨cs, h4, h5, h6⟩ := h3
    have h7 := h4.off; have h8 := h4.cap; have h9 := h4.len
    refine wp_seq (wp_readFrom (.inl h4.owner) h4.get k (s.stack.length - k) (by omega)) ?_
    rintro xs h' ⟨rfl, rfl⟩
    refine wp_make ?_
    generalize hxs : (cs.drop (r.off + (s.stack.length - k))).take k = xs
    have hE1 := ext_alloc e (ArrOf hs.stack) h' (.cells xs)
    have hne1 : r.arr ≠ h'.fresh e := by
      intro hx
      have := get_fresh h' e
      rw [← hx, h4.get] at this
      cases this
    have hget1 : (h'.alloc e (.cells xs)).get r.arr = some (.cells cs) := by
      rw [get_alloc]; simp [hne1, h4.get]
    refine wp_seq (wp_clearFrom h4.owner h4.free k (s.stack.length - k) _ cs hget1 (by omega)) ?_
    rintro _ h'' ⟨hE2, cs', g1, g2, g3⟩
    have hE2' : Ext e (ArrOf hs.stack) (h'.alloc e (.cells xs)) h'' :=
      hE2.mono (fun a ha => by rw [hst]; exact ⟨r, rfl, ha⟩)
    have hE := hE1.trans hE2'
    have hfree := fun a ha => hr.stk.free a ha
    have hxsl : xs.length = k := by rw [← hxs]; simp; omega
    have hxr : RepL F h'' xs ((s.stack.take k).reverse) := by
      have := (h6.drop (s.stack.length - k)).ext hE hr.valid hfree
      rw [List.drop_take] at this
      have e1 : hs.sp - (s.stack.length - k) = k := by omega
      rw [e1, List.drop_reverse] at this
      have e2 : s.stack.length - (s.stack.length - k) = k := by omega
      rw [e2] at this
      rw [← hxs, h7, Nat.zero_add]
      exact this
    have hne' : ∀ a, ArrOf hs.out a → ¬ArrOf (some r) a := by rw [← hst]; exact hr.ne
    refine ⟨_, rfl, ⟨hr.out.ext hE hr.valid hfree hr.ne, hr.dot.ext hE hr.valid hfree, ?_, hne', hr.pc, hr.tick,
      hr.values, hE.valid hr.valid⟩, ⟨xs, ⟨rfl, ?_, ?_, rfl, hxsl, Nat.le_refl _⟩, ?_⟩, ?_, ?_, rfl, rfl⟩
    · refine ⟨cs', ⟨h4.owner, h4.free, g1, h7, by omega, h9⟩, by simp only; omega, ?_⟩
      rw [h7, Nat.zero_add] at g3
      rw [g3]
      have := (h6.take (s.stack.length - k)).ext hE hr.valid hfree
      rw [List.take_take, Nat.min_eq_left (by omega)] at this
      rw [List.take_reverse] at this
      have e2 : s.stack.length - (s.stack.length - k) = k := by omega
      rw [e2] at this
      exact this
    · intro hf; exact hr.valid _ hf (get_fresh h' e)
    · rw [hE2.kept _ (by rw [get_alloc]; simp) (fun hx => hne1 hx.symm), get_alloc]; simp
    · rw [List.take_of_length_le (by simp; omega)]
      exact hxr
    · intro ha; exact hr.out.got _ ha (get_fresh h' e)
    · intro ha; rw [arrOf_some] at ha; exact hne1 ha.symm

end

end JP.Conc
