import Verif.Proof.Conc.State
/-!
Every order that does not touch a channel does in `Model/Conc.lean` what it does in `Model/Machine.lean`.
-/
namespace JP.Conc

/-! ## What operators yield -/

/-- The operators other than `.`, `[]`, slices, `||` and `&&` yield neither arrays nor maps. -/
theorem binop_flat {env : Env} {op : Op} {a b v : V} (h1 : op ≠ .dot) (h2 : op ≠ .index) (h3 : op ≠ .slice)
    (h4 : op ≠ .or) (h5 : op ≠ .and) (h : JP.binop env op a b = some (.ok v)) : isStructure v = false := by
  have ar : ∀ f g, isStructure (arith env a b f g) = false := by
    intro f g; unfold arith; repeat' split
    all_goals rfl
  have dv : ∀ f g, isStructure (divide env a b f g) = false := by
    intro f g; unfold divide; dsimp only; repeat' split
    all_goals rfl
  have rl : ∀ f g k, isStructure (relation env a b f g k) = false := by
    intro f g k; unfold relation; repeat' split
    all_goals rfl
  have mt : ∀ v, opMatch env a b = .ok v → isStructure v = false := by
    intro v hv; unfold opMatch at hv; repeat' split at hv
    all_goals first | (cases hv; rfl) | (cases hv)
  have inn : ∀ op v, opIn env op a b = .ok v → isStructure v = false := by
    intro op v hv; unfold opIn at hv; repeat' split at hv
    all_goals first | (cases hv; rfl) | (cases hv)
  cases op <;> simp only [JP.binop, Option.some.injEq, Res.ok.injEq, reduceCtorEq] at h
  case dot => exact absurd rfl h1
  case index => exact absurd rfl h2
  case slice => exact absurd rfl h3
  case or => exact absurd rfl h4
  case and => exact absurd rfl h5
  case match_ => exact mt _ h
  case in_ => exact inn _ _ h
  case nin => exact inn _ _ h
  all_goals first
    | (rw [← h]; first | exact ar _ _ | exact dv _ _ | exact rl _ _ _ | rfl)

theorem unop_flat {env : Env} {op : Op} {a v : V} (h : unop env op a = some v) : isStructure v = false := by
  cases op <;> simp only [unop, Option.some.injEq, reduceCtorEq] at h
  · rw [← h]; unfold opExp
    split
    · rfl
    · split
      · rename_i hs; cases a <;> first | rfl | (simp [isString, isInt] at hs)
      · rfl
  · rw [← h]; unfold opNeg
    split
    · rfl
    · split <;> rfl
  · rw [← h]; rfl

/-- Something simple, or an array of such. -/
def Flat (v : V) : Prop :=
  isStructure v = false ∨ ∃ xs, v = .arr xs ∧ ∀ x ∈ xs, isStructure x = false

theorem call_flat {env : Env} {ord : Ord} {id : Bytes} {args : List V} {v : V}
    (h : call env ord id args = .ok v) : Flat v := by
  have ar : ∀ f i r xs, isStructure (arithLoop env f i r xs) = false := by
    intro f i r xs
    induction xs generalizing i r with
    | nil => rfl
    | cons x xs ih => unfold arithLoop; split; rfl; exact ih _ _
  have sr : ∀ f i r xs, isStructure (stringLoop f i r xs) = false := by
    intro f i r xs
    induction xs generalizing i r with
    | nil => rfl
    | cons x xs ih => cases x <;> simp only [stringLoop] <;> first | rfl | exact ih _ _
  have av : ∀ n r xs, isStructure (avgLoop env n r xs) = false := by
    intro n r xs
    induction xs generalizing r with
    | nil => rfl
    | cons x xs ih => unfold avgLoop; split; rfl; exact ih _
  have aa : ∀ xs f, isStructure (arithArrayOp env xs f) = false := by
    intro xs f; unfold arithArrayOp; split; rfl; exact ar _ _ _ _
  have sa : ∀ xs f, isStructure (stringArrayOp xs f) = false := by
    intro xs f; unfold stringArrayOp; split; rfl; exact sr _ _ _ _
  have mm : ∀ xs f g, isStructure (minMaxArray env xs f g) = false := by
    intro xs f g; unfold minMaxArray
    split
    · rfl
    · exact aa _ _
    · exact aa _ _
    · exact aa _ _
    · exact sa _ _
    · rfl
  have ap : ∀ f args v, Fn.apply env ord f args = .ok v → Flat v := by
    intro f args v hv
    unfold Fn.apply at hv
    repeat' split at hv
    all_goals simp only [Res.ok.injEq, reduceCtorEq] at hv
    all_goals try subst hv
    all_goals repeat' split
    all_goals first
      | exact .inl rfl
      | exact .inl (aa _ _)
      | exact .inl (mm _ _ _)
      | exact .inl (av _ _ _)
      | (refine .inr ⟨_, rfl, ?_⟩
         intro x hx
         first
           | (simp only [List.mem_map] at hx; obtain ⟨_, _, rfl⟩ := hx; rfl)
           | (simp only [permute, List.mem_filterMap] at hx
              obtain ⟨i, _, hx⟩ := hx
              have := List.mem_of_getElem? hx
              simp only [List.mem_map] at this
              obtain ⟨_, _, rfl⟩ := this; rfl))
  unfold call at h
  split at h
  · cases h
  · split at h
    · split at h
      · cases h
      · exact ap _ _ _ h
    · exact ap _ _ _ h

/-! ## Freezing -/

/-- `F'` freezes more, all of it the evaluation's own. -/
structure Freeze (e : Nat) (F F' : Addr → Prop) : Prop where
  mono : ∀ a, F a → F' a
  own : ∀ a, F' a → F a ∨ a.owner = e

theorem Freeze.refl (e : Nat) (F : Addr → Prop) : Freeze e F F := ⟨fun _ h => h, fun _ h => .inl h⟩

theorem Freeze.trans {e : Nat} {F G H : Addr → Prop} (h1 : Freeze e F G) (h2 : Freeze e G H) : Freeze e F H :=
  ⟨fun a h => h2.mono a (h1.mono a h), fun a h => by
    rcases h2.own a h with h | h
    · exact h1.own a h
    · exact .inr h⟩

/-- The machine goes on in a state that stands for the model's. -/
def NextP (e : Nat) (F : Addr → Prop) (ch : Chans) (c : Ctl) (s : MState) (h : Heap) : Prop :=
  ∃ F' hs, Freeze e F F' ∧ c = .next hs ∧ StRel e F' ch h hs s

theorem sim_freeze {e : Nat} {F F' : Addr → Prop} {ch : Chans} {r : Res RErr MState} {p : PR Ctl}
    {h : Heap} (hf : Freeze e F F') (hp : wp e F' (Post r (NextP e F' ch)) p h) :
    wp e F (Post r (NextP e F ch)) p h := by
  refine wp_freeze hf.mono hf.own _ _ (sim_mono ?_ hp)
  rintro c s h' ⟨G, hs, h1, h2, h3⟩
  exact ⟨G, hs, hf.trans h1, h2, h3⟩

theorem next_ok {e : Nat} {F : Addr → Prop} {ch : Chans} {h : Heap} {hs : HState} {s : MState}
    (hr : StRel e F ch h hs s) : wp e F (Post (.ok s) (NextP e F ch)) (PR.ok (.next hs)) h :=
  ⟨s, rfl, F, hs, Freeze.refl e F, rfl, hr⟩

theorem Accum.init {e : Nat} {F : Addr → Prop} {h : Heap} {o : Option SRef} {g : GoSlice}
    (ho : OutRep e F h o g) : Accum e F (ArrOf o) h h o g := ⟨Ext.refl _ _ _, ho, fun _ h => .inl h⟩

section
variable {e : Nat} {F : Addr → Prop} {ch : Chans} {h : Heap} {hs : HState} {s : MState} {grow : Nat → Nat}

theorem sim_pushNext {v : HV} {x : V} (hr : StRel e F ch h hs s) (hv : Rep F h v x) :
    wp e F (Post (.ok (s.push x)) (NextP e F ch)) (pushNext grow hs v) h := by
  refine wp_seq (wp_push hr hv) ?_
  intro hs' h' hr'
  exact next_ok hr'

theorem pop_nil (hr : StRel e F ch h hs s) (hst : s.stack = []) : pop hs = .panic "stack underflow" := by
  have := hr.stk.sp
  rw [hst] at this
  unfold pop
  simp at this
  simp [this]

theorem PVal.value_flat (v : PVal) : isStructure v.value = false := by cases v <;> rfl

theorem sim_pushVal {prog : Addr} {p : Program} {o : Order} (hr : StRel e F ch h hs s) (hp : F prog)
    (hg : h.get prog = some (.prog p)) :
    wp e F (Post (JP.pushVal p o s) (NextP e F ch)) (pushVal grow prog o hs) h := by
  unfold pushVal JP.pushVal
  cases o.index with
  | none => exact rfl
  | some i =>
    refine wp_const (.inr hp) hg ?_
    cases hv : p.vals[i.toNat]? with
    | none => simp only [hv]; exact rfl
    | some v => simp only [hv]; exact sim_pushNext hr (.atom _ (PVal.value_flat v))

/-- A new array that is not changed any more, as a value. -/
theorem freeze_new {r : SRef} {vs : List V} (hr : StRel e F ch h hs s) (ho : OutRep e F h (some r) (some vs))
    (h1 : ¬ArrOf hs.out r.arr) (h2 : ¬ArrOf hs.stack r.arr) :
    ∃ F', Freeze e F F' ∧ StRel e F' ch h hs s ∧ Rep F' h (.arr r) (.arr vs) := by
  obtain ⟨cs, h3, h4⟩ := ho
  have hf : Freeze e F (fun a => F a ∨ a = r.arr) :=
    ⟨fun _ h => .inl h, fun a h => h.imp id (fun h => by rw [h, h3.owner])⟩
  refine ⟨_, hf, hr.freeze hf.mono ?_ ?_ ?_, ?_⟩
  · rintro a (ha | rfl)
    · exact hr.valid a ha
    · rw [h3.get]; simp
  · rintro a ha (hb | rfl)
    · exact hr.out.free a ha hb
    · exact h1 ha
  · rintro a ha (hb | rfl)
    · exact hr.stk.free a ha hb
    · exact h2 ha
  · have h5 := h3.off; have h6 := h3.cap; have h7 := h3.len
    refine .arr r cs vs (.inr rfl) h3.get (by omega) ?_
    rw [h5, List.drop_zero]
    exact h4.mono hf.mono (fun _ _ => rfl)

/-- The result of an operator, and the machine unchanged. -/
def ValP (e : Nat) (F : Addr → Prop) (ch : Chans) (hs : HState) (s : MState) (x : HV) (v : V)
    (h : Heap) : Prop := ∃ F', Freeze e F F' ∧ StRel e F' ch h hs s ∧ Rep F' h x v

theorem valP_of {x : HV} {v : V} (hr : StRel e F ch h hs s) (hv : Rep F h x v) : ValP e F ch hs s x v h :=
  ⟨F, Freeze.refl e F, hr, hv⟩

theorem sim_store {v : V} (hr : StRel e F ch h hs s) (hv : Flat v) :
    wp e F (Ok fun x h' => ValP e F ch hs s x v h') (store v) h := by
  rcases hv with hv | ⟨xs, rfl, hx⟩
  · have : store v = .ok (.atom v) := by cases v <;> first | rfl | (simp [isStructure] at hv)
    rw [this]
    exact valP_of hr (.atom v hv)
  · refine wp_make ?_
    have hE := ext_alloc e (fun _ => False) h (.cells (xs.map HV.atom))
    refine freeze_new (hr.ext hE (fun _ h => h.elim) (fun _ _ h => h) (fun _ _ h => h))
      ⟨xs.map HV.atom, ⟨rfl, ?_, by rw [get_alloc]; simp, rfl, by simp, Nat.le_refl _⟩, ?_⟩ ?_ ?_
    · intro hf; exact hr.valid _ hf (get_fresh h e)
    · rw [List.take_of_length_le (by simp)]
      clear hE
      induction xs with
      | nil => exact .nil
      | cons x xs ih =>
        exact .cons _ _ _ _ (.atom x (hx x (by simp)))
          ((ih (fun y hy => hx y (by simp [hy]))).mono (fun _ h => h) (fun a ha => by
            have h1 := hr.valid a ha
            have h2 : a ≠ h.fresh e := fun hx => h1 (by rw [hx]; exact get_fresh h e)
            rw [get_alloc, get_alloc]; simp [h2]))
    · intro ha; exact hr.out.got _ ha (get_fresh h e)
    · intro ha; exact hr.stk.got _ ha (get_fresh h e)

theorem wp_loadAll : ∀ (xs : List HV) (vs : List V) (_ : RepL F h xs vs),
    wp e F (Ok fun ws h' => h' = h ∧ ws = vs) (loadAll xs) h
  | _, _, .nil => ⟨rfl, rfl⟩
  | _, _, .cons x v xs vs h1 h2 => by
    refine wp_load h1 ?_
    refine wp_seq (wp_loadAll xs vs h2) ?_
    rintro ws h' ⟨rfl, rfl⟩
    exact ⟨rfl, rfl⟩

/-! ## Operators -/

theorem sim_opDot {env : Env} {a : HV} {av bv : V} (hr : StRel e F ch h hs s) (ha : Rep F h a av) :
    wp e F (Post (JP.opDot env av bv) (ValP e F ch hs s)) (opDot env a bv av) h := by
  unfold opDot JP.opDot
  split
  · exact ⟨_, rfl, valP_of hr (.atom _ rfl)⟩
  cases bv with
  | name key =>
    simp only
    split
    · cases ha with
      | atom _ hv =>
        cases av with
        | arr xs => simp [isStructure] at hv
        | obj xs => simp [isStructure] at hv
        | _ => exact ⟨_, rfl, valP_of hr (.atom _ rfl)⟩
      | arr r cs vs h1 h2 h3 h4 =>
        have hl : r.len = vs.length := by rw [← h4.length]; simp; omega
        simp only [hl]
        exact ⟨_, rfl, valP_of hr (.atom _ rfl)⟩
      | obj b m kvs h1 h2 h3 =>
        refine wp_range (.inr h1) h2 ?_
        rw [h3.length]
        exact ⟨_, rfl, valP_of hr (.atom _ rfl)⟩
    · cases ha with
      | atom _ hv =>
        cases av with
        | arr xs => simp [isStructure] at hv
        | obj xs => simp [isStructure] at hv
        | _ => exact ⟨_, rfl, valP_of hr (.atom _ rfl)⟩
      | arr r cs vs h1 h2 h3 h4 => exact ⟨_, rfl, valP_of hr (.atom _ rfl)⟩
      | obj b m kvs h1 h2 h3 =>
        refine wp_seq (sim_valByKey (X := fun _ => False) hr.valid (fun _ h => h.elim) (Ext.refl _ _ _)
          (.obj b m kvs h1 h2 h3)) ?_
        rintro ox h' ⟨rfl, ⟨rfl, h4⟩ | ⟨x, w, rfl, h4, h5⟩⟩
        · simp only [h4]; exact ⟨_, rfl, valP_of hr (.atom _ rfl)⟩
        · simp only [h4]; exact ⟨_, rfl, valP_of hr h5⟩
  | _ => exact rfl

theorem sim_opIndex {env : Env} {a : HV} {av bv : V} (hr : StRel e F ch h hs s) (ha : Rep F h a av) :
    wp e F (Post (.ok (JP.opIndex env av bv)) (ValP e F ch hs s)) (opIndex env a av bv) h := by
  unfold opIndex JP.opIndex
  split
  · exact ⟨_, rfl, valP_of hr (.atom _ rfl)⟩
  cases ha with
  | atom _ hv =>
    cases av with
    | arr xs => simp [isStructure] at hv
    | obj xs => simp [isStructure] at hv
    | _ => exact ⟨_, rfl, valP_of hr (.atom _ rfl)⟩
  | arr r cs vs h1 h2 h3 h4 =>
    have hsrc : Src e F (fun _ => False) h r vs := src_of_rep (fun _ h => h.elim) (.arr r cs vs h1 h2 h3 h4)
    simp only [hsrc.len, goIndex]
    generalize (if cvi env bv < 0 then cvi env bv + Int64.ofNat vs.length else cvi env bv) = n
    by_cases hc : (decide (n < 0) || decide (n ≥ Int64.ofNat vs.length)) = true
    · simp only [hc, if_true]
      exact ⟨_, rfl, valP_of hr (.atom _ rfl)⟩
    · simp only [hc]
      simp only [Bool.or_eq_true, decide_eq_true_eq, not_or] at hc
      obtain ⟨hc1, hc2⟩ := hc
      have hlt : n.toInt.toNat < vs.length := by
        have := ofNat_le vs.length
        rw [Int64.lt_iff_toInt_lt] at hc1
        rw [ge_iff_le, Int64.le_iff_toInt_le] at hc2
        have h8 : (0 : Int64).toInt = 0 := rfl
        omega
      obtain ⟨x, hx, hxr⟩ := hsrc.cell (Ext.refl _ _ _) (List.getElem?_eq_getElem hlt)
      simp only [hc1, if_false, List.getElem?_eq_getElem hlt, Option.getD_some]
      exact ⟨.inr h1, x, hx, _, rfl, valP_of hr hxr⟩
  | obj b m kvs h1 h2 h3 =>
    refine wp_seq (sim_valByKey (X := fun _ => False) hr.valid (fun _ h => h.elim) (Ext.refl _ _ _)
      (.obj b m kvs h1 h2 h3)) ?_
    rintro ox h' ⟨rfl, ⟨rfl, h4⟩ | ⟨x, w, rfl, h4, h5⟩⟩
    · simp only [h4]; exact ⟨_, rfl, valP_of hr (.atom _ rfl)⟩
    · simp only [h4]; exact ⟨_, rfl, valP_of hr h5⟩

/-- A new empty array as a value. -/
theorem sim_emptyVal (hr : StRel e F ch h hs s) :
    wp e F (Post (.ok (.arr [])) (ValP e F ch hs s)) (emptySlice >>= fun r => .ok (.arr r) : PR HV) h := by
  refine wp_seq (wp_emptySlice hr.valid) ?_
  rintro r h' ⟨hE, h1, h2⟩
  exact ⟨_, rfl, freeze_new (hr.ext hE (fun _ h => h.elim) (fun _ _ h => h) (fun _ _ h => h)) h1
    (fun ha => hr.out.got _ ha h2) (fun ha => hr.stk.got _ ha h2)⟩

omit h s hs in
/-- The end of a slice with a positive stride is within the array. -/
theorem sliceEval_stop (sl : Slice) (n : Nat) {start stop stride : Int64}
    (he : sliceEval sl (Int64.ofNat n) = (start, stop, stride)) (hs : ¬ stride < 0) : stop.toInt.toNat ≤ n := by
  have hl := ofNat_le n
  have hbig : (Int64.ofNat n).toInt < 0 → 2 ^ 63 ≤ n := by
    intro h
    rw [Int64.toInt_ofNat', Int.bmod_def, show (Int64.size : Nat) = 18446744073709551616 from rfl] at h
    split at h <;> omega
  have hub : ∀ x : Int64, x.toInt < 2 ^ 63 := fun x => by have := Int64.toInt_lt x; omega
  have h0 : (0 : Int64).toInt = 0 := rfl
  have key : ∀ st : Int64, (if st > Int64.ofNat n then Int64.ofNat n
      else if st < 0 then (if st + Int64.ofNat n < 0 then 0 else st + Int64.ofNat n) else st) = stop →
      stop.toInt.toNat ≤ n := by
    intro st he
    have hub' := hub stop
    by_cases h1 : st > Int64.ofNat n
    · simp only [h1, if_true] at he
      rw [← he]; omega
    · simp only [h1, if_false] at he
      rw [gt_iff_lt, Int64.lt_iff_toInt_lt] at h1
      by_cases h2 : st < 0
      · simp only [h2, if_true] at he
        by_cases h3 : st + Int64.ofNat n < 0
        · simp only [h3, if_true] at he
          rw [← he, h0]; omega
        · simp only [h3, if_false] at he
          rw [Int64.lt_iff_toInt_lt] at h2
          by_cases h4 : (Int64.ofNat n).toInt < 0
          · have := hbig h4; omega
          · have h5 := Int64.le_toInt st
            have h6 := hub (Int64.ofNat n)
            have h7 : (st + Int64.ofNat n).toInt = st.toInt + (Int64.ofNat n).toInt := by
              rw [Int64.toInt_add, Int.bmod_eq_of_le] <;> omega
            rw [← he, h7]; omega
      · simp only [h2, if_false] at he
        rw [← he]
        omega
  unfold sliceEval at he
  dsimp only at he
  have : ∀ (c : Prop) [Decidable c] (x y : Int64 × Int64 × Int64), (if c then x else y) = (start, stop, stride) →
      (c ∧ x = (start, stop, stride)) ∨ (¬c ∧ y = (start, stop, stride)) := by
    intro c _ x y hx
    split at hx
    · exact .inl ⟨by assumption, hx⟩
    · exact .inr ⟨by assumption, hx⟩
  rcases this _ _ _ he with ⟨h1, h2⟩ | ⟨h1, h2⟩
  · simp only [Prod.mk.injEq] at h2
    rw [h2.2.2] at h1
    exact absurd h1 hs
  · simp only [Prod.mk.injEq] at h2
    exact key _ h2.2.1

theorem sim_opSlice {a : HV} {av bv : V} (hr : StRel e F ch h hs s) (ha : Rep F h a av) :
    wp e F (Post (JP.opSlice av bv) (ValP e F ch hs s)) (opSlice grow a av bv) h := by
  unfold opSlice JP.opSlice
  split
  · exact ⟨_, rfl, valP_of hr (.atom _ rfl)⟩
  cases bv with
  | slice sl =>
    cases ha with
    | atom _ hv =>
      cases av with
      | arr xs => simp [isStructure] at hv
      | _ => exact sim_emptyVal hr
    | obj b m kvs h1 h2 h3 => exact sim_emptyVal hr
    | arr r cs vs h1 h2 h3 h4 =>
      have hsrc : Src e F (fun _ => False) h r vs := src_of_rep (fun _ h => h.elim) (.arr r cs vs h1 h2 h3 h4)
      refine sim_bind (P := fun q ws h' => ValP e F ch hs s (.arr q) (.arr ws) h') ?_
        (fun q ws h' _ hq => ⟨_, rfl, hq⟩)
      unfold slicing JP.slicing
      rw [hsrc.len]
      rcases he : sliceEval sl (Int64.ofNat vs.length) with ⟨start, stop, stride⟩
      simp only
      by_cases hst : (stride == 1) = true
      · simp only [hst, if_true]
        by_cases hle : start ≤ stop
        · simp only [hle, if_true]
          have hb : stop.toInt.toNat ≤ vs.length := by
            refine sliceEval_stop sl vs.length he ?_
            simp only [beq_iff_eq] at hst
            rw [hst]; decide
          have hl := hsrc.len
          rw [Int64.le_iff_toInt_le] at hle
          refine ⟨_, rfl, valP_of hr (.arr _ cs _ h1 h2 (by simp only; omega) ?_)⟩
          have := (h4.take stop.toInt.toNat).drop start.toInt.toNat
          rw [List.take_take, Nat.min_eq_left (by omega), List.drop_take, List.drop_drop] at this
          exact this
        · simp only [hle, if_false]
          exact rfl
      · simp only [hst]
        refine wp_seq (wp_emptySlice hr.valid) ?_
        rintro q h' ⟨hE, g1, g2⟩
        have hacc : Accum e F (fun _ => False) h h' (some q) (some []) :=
          ⟨hE, g1, by rintro b ⟨q', hq, rfl⟩; cases hq; exact .inr g2⟩
        have := acc_sliceVals (grow := grow) hr.valid (fun _ h => h.elim) hsrc sl hacc
        apply wp_bindR
        refine wp_mono ?_ _ _ this
        intro x h'' hx
        cases x with
        | ok o =>
          obtain ⟨ws, hw, hacc'⟩ := hx
          have hsome : GoSlice.appendAll (some []) ws = some ws := by
            cases ws <;> simp [GoSlice.appendAll, GoSlice.elems]
          rw [hsome] at hacc'
          cases o with
          | none => exact hacc'.rep.elim
          | some q' =>
            have hnew : h.get q'.arr = none := by
              rcases hacc'.new _ ⟨q', rfl, rfl⟩ with h5 | h5
              · exact h5.elim
              · exact h5
            exact ⟨ws, hw, freeze_new (hr.ext hacc'.ext (fun _ h => h.elim) (fun _ _ h => h) (fun _ _ h => h))
              hacc'.rep (fun ha => hr.out.got _ ha hnew) (fun ha => hr.stk.got _ ha hnew)⟩
        | err x => exact hx
        | panic m => exact hx
        | stuck => exact hx
  | _ => exact sim_emptyVal hr

/-- The operators with two operands. -/
def Binary : Op → Prop
  | .dot | .index | .slice | .or | .and | .add | .sub | .mul | .div | .mod | .eq | .ne | .lt | .le
  | .ge | .gt | .match_ | .in_ | .nin => True
  | _ => False

theorem sim_pure {op : Op} {env : Env} {av bv : V} {r : Res RErr V} (hr : StRel e F ch h hs s)
    (hb : JP.binop env op av bv = some r) (h1 : op ≠ .dot) (h2 : op ≠ .index) (h3 : op ≠ .slice)
    (h4 : op ≠ .or) (h5 : op ≠ .and) :
    wp e F (Post r (ValP e F ch hs s)) (PR.res r >>= fun v => .ok (.atom v) : PR HV) h := by
  cases r with
  | ok v => exact ⟨v, rfl, valP_of hr (.atom v (binop_flat h1 h2 h3 h4 h5 hb))⟩
  | err x => exact rfl
  | panic m => exact rfl
  | stuck => exact rfl

theorem sim_binop {op : Op} {env : Env} {a b : HV} {av bv : V} (hop : Binary op) (hr : StRel e F ch h hs s)
    (ha : Rep F h a av) (hb : Rep F h b bv) :
    ∃ r, JP.binop env op av bv = some r ∧ wp e F (Post r (ValP e F ch hs s)) (binop env grow op a b) h := by
  cases op <;> first | (exfalso; exact hop) | skip
  case dot => exact ⟨_, rfl, wp_load ha (wp_load hb (sim_opDot hr ha))⟩
  case index => exact ⟨_, rfl, wp_load ha (wp_load hb (sim_opIndex hr ha))⟩
  case slice => exact ⟨_, rfl, wp_load ha (wp_load hb (sim_opSlice hr ha))⟩
  case or =>
    refine ⟨_, rfl, wp_load ha (wp_load hb ?_)⟩
    unfold opOr
    simp only
    split
    · exact ⟨_, rfl, valP_of hr (.atom _ rfl)⟩
    · split
      · exact ⟨_, rfl, valP_of hr ha⟩
      · exact ⟨_, rfl, valP_of hr hb⟩
  case and =>
    refine ⟨_, rfl, wp_load ha (wp_load hb ?_)⟩
    unfold opAnd
    simp only
    split
    · exact ⟨_, rfl, valP_of hr ha⟩
    · exact ⟨_, rfl, valP_of hr hb⟩
  case add => exact ⟨_, rfl, wp_load ha (wp_load hb (sim_pure (op := .add) (env := env) (av := av) (bv := bv)
    hr rfl (by decide) (by decide) (by decide) (by decide) (by decide)))⟩
  case sub => exact ⟨_, rfl, wp_load ha (wp_load hb (sim_pure (op := .sub) (env := env) (av := av) (bv := bv)
    hr rfl (by decide) (by decide) (by decide) (by decide) (by decide)))⟩
  case mul => exact ⟨_, rfl, wp_load ha (wp_load hb (sim_pure (op := .mul) (env := env) (av := av) (bv := bv)
    hr rfl (by decide) (by decide) (by decide) (by decide) (by decide)))⟩
  case div => exact ⟨_, rfl, wp_load ha (wp_load hb (sim_pure (op := .div) (env := env) (av := av) (bv := bv)
    hr rfl (by decide) (by decide) (by decide) (by decide) (by decide)))⟩
  case mod => exact ⟨_, rfl, wp_load ha (wp_load hb (sim_pure (op := .mod) (env := env) (av := av) (bv := bv)
    hr rfl (by decide) (by decide) (by decide) (by decide) (by decide)))⟩
  case eq => exact ⟨_, rfl, wp_load ha (wp_load hb (sim_pure (op := .eq) (env := env) (av := av) (bv := bv)
    hr rfl (by decide) (by decide) (by decide) (by decide) (by decide)))⟩
  case ne => exact ⟨_, rfl, wp_load ha (wp_load hb (sim_pure (op := .ne) (env := env) (av := av) (bv := bv)
    hr rfl (by decide) (by decide) (by decide) (by decide) (by decide)))⟩
  case lt => exact ⟨_, rfl, wp_load ha (wp_load hb (sim_pure (op := .lt) (env := env) (av := av) (bv := bv)
    hr rfl (by decide) (by decide) (by decide) (by decide) (by decide)))⟩
  case le => exact ⟨_, rfl, wp_load ha (wp_load hb (sim_pure (op := .le) (env := env) (av := av) (bv := bv)
    hr rfl (by decide) (by decide) (by decide) (by decide) (by decide)))⟩
  case ge => exact ⟨_, rfl, wp_load ha (wp_load hb (sim_pure (op := .ge) (env := env) (av := av) (bv := bv)
    hr rfl (by decide) (by decide) (by decide) (by decide) (by decide)))⟩
  case gt => exact ⟨_, rfl, wp_load ha (wp_load hb (sim_pure (op := .gt) (env := env) (av := av) (bv := bv)
    hr rfl (by decide) (by decide) (by decide) (by decide) (by decide)))⟩
  case match_ => exact ⟨_, rfl, wp_load ha (wp_load hb (sim_pure (op := .match_) (env := env) (av := av) (bv := bv)
    hr rfl (by decide) (by decide) (by decide) (by decide) (by decide)))⟩
  case in_ => exact ⟨_, rfl, wp_load ha (wp_load hb (sim_pure (op := .in_) (env := env) (av := av) (bv := bv)
    hr rfl (by decide) (by decide) (by decide) (by decide) (by decide)))⟩
  case nin => exact ⟨_, rfl, wp_load ha (wp_load hb (sim_pure (op := .nin) (env := env) (av := av) (bv := bv)
    hr rfl (by decide) (by decide) (by decide) (by decide) (by decide)))⟩

/-! ## Orders -/

/-- Two states with the same contents. -/
theorem StRel.withTick (hr : StRel e F ch h hs s) : StRel e F ch h { hs with tick := hs.tick + 1 } { s with tick := s.tick + 1 } :=
  { hr with tick := by simp only [hr.tick] }

theorem sim_pushVP {x : HV} {v : V} {h' : Heap} (hv : ValP e F ch hs s x v h') :
    wp e F (Post (.ok (s.push v)) (NextP e F ch)) (pushNext grow hs x) h' := by
  obtain ⟨F', h1, h2, h3⟩ := hv
  exact sim_freeze h1 (sim_pushNext h2 h3)

/-- A selection from the whole output set. -/
theorem sim_selection {fH : Nat → HV → Option SRef → PR (Option SRef)} {fV : Nat → V → GoSlice → Res RErr GoSlice}
    (hr : StRel e F ch h hs s) (hf : SelSim e F (fun _ => False) h fH fV) :
    wp e F (Post (JP.applySelection fV 0 (some []) s.out.elems >>= fun out => .ok { s with out := out })
      (NextP e F ch)) (applySelection fH hs.out >>= fun out => .ok (.next { hs with out := out }) : PR Ctl) h := by
  refine sim_bind (sim_applySelection hr.valid hf hr.out) ?_
  intro o g h' _ ha
  exact next_ok (hr.setOut ha (fun _ h => h.elim))

/-- A selection from the current value, appended to the output set. -/
theorem sim_nested {p : PR (Option SRef)} {r : Res RErr GoSlice} (hr : StRel e F ch h hs s)
    (hp : wp e F (Post r (fun o' g' h' => Accum e F (ArrOf hs.out) h h' o' g')) p h) :
    wp e F (Post (r >>= fun out => .ok { s with out := out }) (NextP e F ch))
      (p >>= fun out => .ok (.next { hs with out := out }) : PR Ctl) h := by
  refine sim_bind hp ?_
  intro o g h' _ ha
  exact next_ok (hr.setOut ha (fun _ h => h))

/-- The elements of an array just popped. -/
theorem wp_popped {r : SRef} {vs : List V} (ho : OutRep e F h (some r) (some vs)) :
    wp e F (Ok fun xs h' => h' = h ∧ RepL F h xs vs) (readFrom r r.len 0) h := by
  obtain ⟨cs, h1, h2⟩ := ho
  have h3 := h1.off; have h4 := h1.cap; have h5 := h1.len
  refine wp_mono ?_ _ _ (wp_readFrom (.inl h1.owner) h1.get r.len 0 (by omega))
  intro x h' hx
  cases x with
  | ok xs =>
    obtain ⟨rfl, rfl⟩ := hx
    refine ⟨rfl, ?_⟩
    rw [h3]; exact h2
  | err x => exact hx
  | panic m => exact hx
  | stuck => exact hx

/-- The operators that do not touch a channel. -/
def NoLoop : Op → Prop
  | .for_ | .nest | .rep => False
  | _ => True

theorem sim_exec {env : Env} {oracle : Oracle} {prog : Addr} {p : Program} {root : HV} {rootv : V} {o : Order}
    {op : Op} (hop : NoLoop op) (hr : StRel e F ch h hs s) (hp : F prog) (hg : h.get prog = some (.prog p))
    (hroot : Rep F h root rootv) :
    wp e F (Post (JP.exec env oracle p rootv o op s) (NextP e F ch))
      (exec env grow oracle prog root o op hs) h := by
  have hpush : ∀ v, isStructure v = false →
      wp e F (Post (.ok (s.push v)) (NextP e F ch)) (pushNext grow hs (.atom v)) h :=
    fun v hv => sim_pushNext hr (.atom v hv)
  have hval : wp e F (Post (JP.pushVal p o s) (NextP e F ch)) (pushVal grow prog o hs) h := sim_pushVal hr hp hg
  have hbin : ∀ op, Binary op →
      wp e F (Post (match s.stack with
        | b :: a :: st => match JP.binop env op a b with
          | some r => do
            let v ← r
            .ok { s with stack := v :: st }
          | none => .stuck
        | _ => .panic "stack underflow") (NextP e F ch))
        (do
          let (b, s) ← pop hs
          let (a, s) ← pop s
          let r ← binop env grow op a b
          pushNext grow s r : PR Ctl) h := by
    intro op hop
    cases hst : s.stack with
    | nil => rw [pop_nil hr hst]; exact rfl
    | cons b st =>
      refine wp_seq (wp_pop hr hst) ?_
      rintro ⟨x, hs'⟩ h' ⟨h1, h2, _, _⟩
      cases hst' : st with
      | nil => simp only; rw [pop_nil h2 hst']; exact rfl
      | cons a st =>
        refine wp_seq (wp_pop h2 hst') ?_
        rintro ⟨y, hs''⟩ h'' ⟨h3, h4, _, hE⟩
        obtain ⟨r, hb, hw⟩ := sim_binop (env := env) (grow := grow) hop h4 h3
          (h1.ext hE h2.valid (fun a ha => h2.stk.free a ha))
        simp only [hb]
        exact sim_bind hw (fun z v h5 _ hz => sim_pushVP hz)
  have hun : ∀ op : Op,
      wp e F (Post (match s.stack with
        | [] => .panic "stack underflow"
        | v :: st => match unop env op v with
          | some r => .ok { s with stack := r :: st }
          | none => .stuck) (NextP e F ch))
        (do
          let (x, s) ← pop hs
          let v ← PR.load x
          match unop env op v with
            | some r => pushNext grow s (.atom r)
            | none => PR.res .stuck : PR Ctl) h := by
    intro op
    cases hst : s.stack with
    | nil => rw [pop_nil hr hst]; exact rfl
    | cons b st =>
      refine wp_seq (wp_pop hr hst) ?_
      rintro ⟨x, hs'⟩ h' ⟨h1, h2, _, _⟩
      refine wp_load h1 ?_
      simp only
      cases hu : unop env op b with
      | none => exact rfl
      | some r => exact sim_pushNext h2 (.atom r (unop_flat hu))
  have hsel : ∀ neg : Bool,
      wp e F (Post (match s.stack with
        | [] => .panic "stack underflow"
        | sel :: st =>
          if isNothing sel then .ok { s with stack := st, out := some [] }
          else do
            let out ← JP.applySelection (fun _ el acc => JP.valsByKey env acc el sel neg) 0 (some []) s.out.elems
            .ok { s with stack := st, out := out }) (NextP e F ch))
        (do
          let (x, s) ← pop hs
          let sel ← PR.load x
          if isNothing sel then do
            let r ← emptySlice
            .ok (.next { s with out := some r })
          else do
            let out ← applySelection (fun _ el acc => valsByKey env grow acc el sel neg) s.out
            .ok (.next { s with out := out }) : PR Ctl) h := by
    intro neg
    cases hst : s.stack with
    | nil => rw [pop_nil hr hst]; exact rfl
    | cons b st =>
      refine wp_seq (wp_pop hr hst) ?_
      rintro ⟨x, hs'⟩ h' ⟨h1, h2, _, _⟩
      refine wp_load h1 ?_
      by_cases hn : isNothing b = true
      · simp only [hn, if_true]
        refine wp_seq (wp_emptySlice h2.valid) ?_
        rintro r h'' ⟨g1, g2, g3⟩
        exact next_ok (h2.setOut (X := fun _ => False) (o := some r) (g := some [])
          ⟨g1, g2, by rintro a ⟨r', hr', rfl⟩; cases hr'; exact .inr g3⟩ (fun _ h => h.elim))
      · simp only [hn]
        exact sim_selection h2 (fun k el v hv h o g ha => acc_valsByKey h2.valid (fun _ h => h.elim) ha hv)
  have hfil :
      wp e F (Post (match s.stack with
        | [] => .panic "stack underflow"
        | v :: st =>
          if !isNothing v && cvb env v then .ok { s with stack := st, out := s.out.append s.dot }
          else .ok { s with stack := st }) (NextP e F ch))
        (do
          let (x, s) ← pop hs
          let v ← PR.load x
          if !isNothing v && cvb env v then do
            let r ← append grow s.out s.dot
            .ok (.next { s with out := some r })
          else .ok (.next s) : PR Ctl) h := by
    cases hst : s.stack with
    | nil => rw [pop_nil hr hst]; exact rfl
    | cons b st =>
      refine wp_seq (wp_pop hr hst) ?_
      rintro ⟨x, hs'⟩ h' ⟨h1, h2, _, _⟩
      refine wp_load h1 ?_
      by_cases hn : (!isNothing b && cvb env b) = true
      · simp only [hn, if_true]
        refine wp_seq (acc_append h2.valid (fun a ha => h2.out.free a ha) (Accum.init h2.out) h2.dot) ?_
        intro r h'' ha
        exact next_ok (h2.setOut ha (fun _ h => h))
      · simp only [hn]
        exact next_ok h2
  have hnsel : ∀ neg : Bool,
      wp e F (Post (match s.stack with
        | [] => .panic "stack underflow"
        | sel :: st =>
          if isNothing sel then .ok { s with stack := st }
          else do
            let out ← JP.valsByKey env s.out s.dot sel neg
            .ok { s with stack := st, out := out }) (NextP e F ch))
        (do
          let (x, s) ← pop hs
          let sel ← PR.load x
          if isNothing sel then .ok (.next s)
          else do
            let out ← valsByKey env grow s.out s.dot sel neg
            .ok (.next { s with out := out }) : PR Ctl) h := by
    intro neg
    cases hst : s.stack with
    | nil => rw [pop_nil hr hst]; exact rfl
    | cons b st =>
      refine wp_seq (wp_pop hr hst) ?_
      rintro ⟨x, hs'⟩ h' ⟨h1, h2, _, _⟩
      refine wp_load h1 ?_
      by_cases hn : isNothing b = true
      · simp only [hn, if_true]
        exact next_ok h2
      · simp only [hn]
        exact sim_nested h2 (acc_valsByKey h2.valid (fun a ha => h2.out.free a ha) (Accum.init h2.out) h2.dot)
  cases op
  all_goals first | (exfalso; exact hop) | skip
  case int => unfold exec JP.exec; dsimp only; split; exact hpush _ rfl; exact hval
  case bool => unfold exec JP.exec; dsimp only; split; exact rfl; exact hpush _ rfl
  case null => exact hpush _ rfl
  case real => exact hval
  case re => exact hval
  case bounds => exact hval
  case string => exact hval
  case id => exact hval
  case root => exact sim_pushNext hr hroot
  case current => exact sim_pushNext hr hr.dot
  case error => unfold exec JP.exec; simp only [hr.pc]; exact rfl
  case wild =>
    refine sim_selection hr.withTick ?_
    intro k el v hv h o g ha
    rw [hr.tick]
    exact sim_of_ok (acc_valsWild hr.valid (fun _ h => h.elim) ha hv) (fun _ _ h => h)
  case nestWild =>
    refine sim_nested (r := .ok _) hr.withTick ?_
    rw [hr.tick]
    exact sim_of_ok (acc_valsWild hr.valid (fun a ha => hr.out.free a ha) (Accum.init hr.out) hr.dot) (fun _ _ h => h)
  case member => exact hsel false
  case select => exact hsel true
  case filter => exact hfil
  case nestFilter => exact hfil
  case nestMember => exact hnsel false
  case nestSelect => exact hnsel true
  case union =>
    refine sim_bind (sim_popN hr o.smallInt) ?_
    rintro ⟨a, hs'⟩ ⟨sels, st⟩ h' _ ⟨h1, h2, h3, h4, _, _⟩
    refine wp_seq (wp_popped h2) ?_
    rintro xs h'' ⟨rfl, hx⟩
    exact sim_selection h1 (fun k el v hv h o g ha =>
      acc_unionByKeys h1.valid (fun _ h => h.elim) hv xs sels hx h o g ha)
  case nestUnion =>
    refine sim_bind (sim_popN hr o.smallInt) ?_
    rintro ⟨a, hs'⟩ ⟨sels, st⟩ h' _ ⟨h1, h2, h3, h4, _, _⟩
    refine wp_seq (wp_popped h2) ?_
    rintro xs h'' ⟨rfl, hx⟩
    exact sim_nested h1 (acc_unionByKeys h1.valid (fun a ha => h1.out.free a ha) h1.dot xs sels hx _ _ _
      (Accum.init h1.out))
  case array =>
    refine sim_bind (sim_popN hr o.smallInt) ?_
    rintro ⟨a, hs'⟩ ⟨vs, st⟩ h' _ ⟨h1, h2, h3, h4, _, _⟩
    exact sim_pushVP (s := { s with stack := st }) (freeze_new h1 h2 h3 h4)
  case call =>
    refine sim_bind (sim_popN hr.withTick o.smallInt) ?_
    rintro ⟨a, hs'⟩ ⟨vs, st⟩ h' _ ⟨h1, h2, h3, h4, _, _⟩
    refine wp_seq (wp_popped h2) ?_
    rintro xs h'' ⟨rfl, hx⟩
    cases hx with
    | nil => exact rfl
    | cons x v xs vs hx1 hx2 =>
      refine wp_load hx1 ?_
      cases v with
      | name id =>
        refine wp_seq (wp_loadAll xs vs hx2) ?_
        rintro ws h3 ⟨rfl, rfl⟩
        rw [hr.tick]
        simp only
        cases hc : call env (oracle s.tick) id ws with
        | ok v =>
          refine wp_okBind (wp_seq (sim_store h1 (call_flat hc)) ?_)
          intro x h5 hv
          exact sim_pushVP hv
        | err x => exact rfl
        | panic m => exact rfl
        | stuck => exact rfl
      | _ => exact rfl
  case exp => exact hun .exp
  case neg => exact hun .neg
  case not => exact hun .not
  case dot => exact hbin .dot trivial
  case index => exact hbin .index trivial
  case slice => exact hbin .slice trivial
  case or => exact hbin .or trivial
  case and => exact hbin .and trivial
  case add => exact hbin .add trivial
  case sub => exact hbin .sub trivial
  case mul => exact hbin .mul trivial
  case div => exact hbin .div trivial
  case mod => exact hbin .mod trivial
  case eq => exact hbin .eq trivial
  case ne => exact hbin .ne trivial
  case lt => exact hbin .lt trivial
  case le => exact hbin .le trivial
  case ge => exact hbin .ge trivial
  case gt => exact hbin .gt trivial
  case match_ => exact hbin .match_ trivial
  case in_ => exact hbin .in_ trivial
  case nin => exact hbin .nin trivial

end

end JP.Conc
