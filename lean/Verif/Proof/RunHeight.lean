import Verif.Proof.RunDepth
import Verif.Spec.RunDepth
/-!
How high the values are that an evaluation holds.
-/
namespace JP
open Spec

theorem Child.height {src v : V} (h : Child src v) : height v + 1 ≤ Spec.height src := by
  rcases h with ⟨xs, rfl, h⟩ | ⟨kvs, k, rfl, h⟩
  · obtain ⟨i, hi⟩ := List.mem_iff_getElem?.1 h
    simpa [Spec.height] using heights_get hi
  · simpa [Spec.height] using heightm_mem h

theorem Desc.height {src v : V} (h : Desc src v) : height v ≤ Spec.height src := by
  induction h with
  | root => exact Nat.le_refl _
  | elem _ h ih => have := Child.height (.inl ⟨_, rfl, h⟩); omega
  | member _ h ih => have := Child.height (.inr ⟨_, _, rfl, h⟩); omega

theorem heights_le_iff {n : Nat} : ∀ {xs : List V}, heights xs ≤ n + 1 ↔ ∀ v ∈ xs, height v ≤ n
  | [] => by simp [heights]
  | v :: r => by
    have := heights_le_iff (n := n) (xs := r)
    simp only [heights, List.mem_cons, forall_eq_or_imp, ← this]
    omega

/-! ### Operators -/

/-- The value is at most so high. -/
def Lo (n : Nat) (v : V) : Prop := height v ≤ n

namespace Lo
variable {n : Nat}
theorem nothing : Lo n .nothing := Nat.zero_le _
theorem null : Lo n .null := Nat.zero_le _
theorem bool (b : Bool) : Lo n (.bool b) := Nat.zero_le _
theorem int (b : Int64) : Lo n (.int b) := Nat.zero_le _
theorem gint (b : Int64) : Lo n (.gint b) := Nat.zero_le _
theorem float (b : F64) : Lo n (.float b) := Nat.zero_le _
theorem str (b : Bytes) : Lo n (.str b) := Nat.zero_le _
theorem err (b : Err) : Lo n (.err b) := Nat.zero_le _
theorem arr {xs : List V} (h : ∀ v ∈ xs, Lo n v) : Lo (n + 1) (.arr xs) := heights_le_iff.2 h
theorem desc {a v : V} (h : Lo n a) (hd : Desc a v) : Lo n v := Nat.le_trans hd.height h
theorem mono {m : Nat} {v : V} (h : Lo n v) (hm : n ≤ m) : Lo m v := Nat.le_trans h hm
end Lo

variable {n : Nat}

theorem opDot_lo {env : Env} {a b v : V} (ha : Lo n a) (h : opDot env a b = .ok v) : Lo n v := by
  unfold opDot at h
  split at h
  · cases h; exact .nothing
  · split at h
    · split at h
      · split at h <;> cases h <;> first | exact .int _ | exact .nothing
      · split at h
        · next key _ _ kvs _ =>
          cases h
          cases hv : valByKey env (.obj kvs) (.name key) false with
          | none => exact .nothing
          | some w =>
            rcases valByKey_desc hv with rfl | hd
            · exact .null
            · exact ha.desc hd
        · cases h; exact .nothing
    · cases h

theorem opIndex_lo {env : Env} {a b : V} (ha : Lo n a) : Lo n (opIndex env a b) := by
  unfold opIndex
  split
  · exact .nothing
  · split
    · next xs _ =>
      dsimp only
      generalize (if cvi env b < 0 then cvi env b + Int64.ofNat xs.length else cvi env b) = sel
      split
      · exact .nothing
      · cases hv : goIndex xs sel with
        | none => exact .nothing
        | some w => exact ha.desc (.elem .root (goIndex_mem hv))
    · next kvs _ =>
      cases hv : valByKey env (.obj kvs) b true with
      | none => exact .nothing
      | some w =>
        rcases valByKey_desc hv with rfl | hd
        · exact .null
        · exact ha.desc hd
    · exact .nothing

theorem arith_lo {env : Env} {a b : V} {f g} : Lo n (arith env a b f g) := by
  unfold arith
  repeat' split
  all_goals first | exact .nothing | exact .float _ | exact .int _

theorem divide_lo {env : Env} {a b : V} {f g} : Lo n (divide env a b f g) := by
  unfold divide
  dsimp only
  repeat' split
  all_goals first | exact .nothing | exact .float _ | exact .int _

theorem relation_lo {env : Env} {a b : V} {f g h} : Lo n (relation env a b f g h) := by
  unfold relation
  repeat' split
  all_goals first | exact .nothing | exact .bool _

theorem opMatch_lo {env : Env} {a b v : V} (h : opMatch env a b = .ok v) : Lo n v := by
  unfold opMatch at h
  dsimp only at h
  split at h
  · cases h; exact .nothing
  · repeat' split at h
    all_goals first | (cases h; done) | (cases h; exact .bool _)

theorem opIn_lo {env : Env} {op : Op} {a b v : V} (h : opIn env op a b = .ok v) : Lo n v := by
  unfold opIn at h
  split at h
  · cases h; exact .nothing
  · split at h
    · cases h; exact .bool _
    · cases h

theorem binop_lo {env : Env} {op : Op} {a b v : V} (hop : op ≠ .slice) (ha : Lo n a) (hb : Lo n b)
    (h : binop env op a b = some (.ok v)) : Lo n v := by
  cases op <;> simp only [binop, Option.some.injEq, reduceCtorEq, Res.ok.injEq] at h
  case dot => exact opDot_lo ha h
  case index => subst h; exact opIndex_lo ha
  case slice => exact absurd rfl hop
  case or =>
    subst h; unfold opOr
    split
    · exact .nothing
    · split
      · exact ha
      · exact hb
  case and =>
    subst h; unfold opAnd
    split
    · exact ha
    · exact hb
  case match_ => exact opMatch_lo h
  case in_ => exact opIn_lo h
  case nin => exact opIn_lo h
  all_goals
    subst h
    first | exact arith_lo | exact divide_lo | exact relation_lo | exact .bool _

theorem unop_lo {env : Env} {op : Op} {a v : V} (ha : Lo n a) (h : unop env op a = some v) : Lo n v := by
  cases op <;> simp only [unop, Option.some.injEq, reduceCtorEq] at h
  case exp =>
    subst h; unfold opExp
    split
    · exact .nothing
    · split
      · exact ha
      · exact .int _
  case neg =>
    subst h; unfold opNeg
    split
    · exact .nothing
    · split
      · exact .float _
      · exact .int _
  case not => subst h; exact .bool _

theorem arithLoop_lo {env : Env} {f} : ∀ {i : Nat} {r : F64} {xs : List V}, Lo n (arithLoop env f i r xs)
  | _, _, [] => by unfold arithLoop; exact .float _
  | _, _, v :: r => by unfold arithLoop; split; exact .err _; exact arithLoop_lo

theorem arithArrayOp_lo {env : Env} {f} {xs : List V} : Lo n (arithArrayOp env xs f) := by
  unfold arithArrayOp; split; exact .null; exact arithLoop_lo

theorem stringLoop_lo {f} {xs : List V} : ∀ {i : Nat} {r : Bytes}, Lo n (stringLoop f i r xs) := by
  induction xs with
  | nil => intro i r; unfold stringLoop; exact .str _
  | cons v xs ih =>
    intro i r
    cases v <;> unfold stringLoop <;> first | exact ih | exact .err _

theorem stringArrayOp_lo {f} {xs : List V} : Lo n (stringArrayOp xs f) := by
  unfold stringArrayOp; split; exact .null; exact stringLoop_lo

theorem minMax_lo {env : Env} {f g} {xs : List V} : Lo n (minMaxArray env xs f g) := by
  unfold minMaxArray
  split
  all_goals first | exact .null | exact arithArrayOp_lo | exact stringArrayOp_lo | exact .err _

theorem avgLoop_lo {env : Env} {k : Nat} : ∀ {s : F64} {xs : List V}, Lo n (avgLoop env k s xs)
  | _, [] => by unfold avgLoop; exact .float _
  | _, v :: r => by unfold avgLoop; split; exact .err _; exact avgLoop_lo

/-- No function makes more than an array of strings. -/
theorem fnApply_lo {env : Env} {ord : Ord} {f : Fn} {args : List V} {v : V} (h : f.apply env ord args = .ok v) : Lo (n + 1) v := by
  unfold Fn.apply at h
  repeat' split at h
  all_goals
    first
      | (cases h; done)
      | skip
  all_goals
    injection h with h
    subst h
    repeat' split
    all_goals first
      | exact .null | exact .int _ | exact .gint _ | exact .float _ | exact .str _ | exact .bool _ | exact .err _
      | exact .nothing | exact avgLoop_lo | exact minMax_lo | exact arithArrayOp_lo
      | skip
  · refine .arr (fun x hx => ?_)
    have := mem_permute hx
    rw [List.mem_map] at this
    obtain ⟨_, _, rfl⟩ := this
    exact .str _
  · refine .arr (fun x hx => ?_)
    rw [List.mem_map] at hx
    obtain ⟨_, _, rfl⟩ := hx
    exact .str _

theorem call_lo {env : Env} {ord : Ord} {id : Bytes} {args : List V} {v : V} (h : call env ord id args = .ok v) : Lo (n + 1) v := by
  unfold call at h
  repeat' split at h
  all_goals first | (cases h; done) | exact fnApply_lo h

/-! ### Selection -/

theorem sliceLoop_mem {up : Bool} {src : List V} {stop stride : Int64} : ∀ {f : Nat} {i : Int64} {acc r : List V},
    sliceLoop up src stop stride f i acc = .ok r → ∀ v ∈ r, v ∈ acc ∨ v ∈ src
  | 0, _, _, _, h => by cases h
  | f + 1, i, acc, r, h => by
    unfold sliceLoop at h
    by_cases hc : if up = true then i < stop else i > stop
    · rw [if_pos hc] at h
      split at h
      · rename_i w hw
        intro v hv
        rcases sliceLoop_mem h v hv with h1 | h1
        · rcases List.mem_append.1 h1 with h1 | h1
          · exact .inl h1
          · rw [List.mem_singleton.1 h1]
            exact .inr (goIndex_mem hw)
        · exact .inr h1
      · cases h
    · rw [if_neg hc] at h
      cases h
      exact fun v hv => .inl hv

theorem sliceVals_mem {src : List V} {s : Slice} {r : List V} (h : sliceVals src s = .ok r) : ∀ v ∈ r, v ∈ src := by
  have key : ∀ {up f i stop stride}, sliceLoop up src stop stride f i [] = .ok r → ∀ v ∈ r, v ∈ src := by
    intro up f i stop stride h v hv
    rcases sliceLoop_mem h v hv with h | h
    · cases h
    · exact h
  unfold sliceVals at h
  generalize sliceEval s (Int64.ofNat src.length) = t at h
  obtain ⟨a, b, c⟩ := t
  dsimp only at h
  split at h
  · exact key h
  · split at h
    · exact key h
    · cases h; simp

/-- What a selection gives has been given or comes from the children of the value. -/
theorem valsByKey_mem {env : Env} {vals r : GoSlice} {src key : V} {neg : Bool} (h : valsByKey env vals src key neg = .ok r) :
    ∀ v ∈ r.elems, v ∈ vals.elems ∨ Child src v := by
  unfold valsByKey at h
  split at h
  · split at h
    · next xs =>
      obtain ⟨vs, hvs, h⟩ := bind_eq_ok h
      cases h
      intro v hv
      rcases mem_appendAll.1 hv with hv | hv
      · exact .inl hv
      · exact .inr (.inl ⟨xs, rfl, sliceVals_mem hvs v hv⟩)
    · cases h; simp [GoSlice.elems]
  · split at h
    · next xs =>
      split at h
      · split at h
        · next w hw =>
          cases h
          intro v hv
          rcases mem_append.1 hv with hv | rfl
          · exact .inl hv
          · unfold valByKey at hw
            dsimp only at hw
            generalize (if (neg && decide (cvi env key < 0)) = true then cvi env key + Int64.ofNat xs.length
              else cvi env key) = n at hw
            split at hw
            · exact .inr (.inl ⟨xs, rfl, goIndex_mem hw⟩)
            · cases hw
        · cases h; exact fun v hv => .inl hv
      · cases h; exact fun v hv => .inl hv
    · next kvs =>
      split at h
      · next w hw =>
        cases h
        intro v hv
        rcases mem_append.1 hv with hv | rfl
        · exact .inl hv
        · exact .inr (.inr ⟨kvs, _, rfl, lookup_mem hw⟩)
      · cases h; exact fun v hv => .inl hv
    · cases h; exact fun v hv => .inl hv

theorem unionByKeys_mem {env : Env} {src : V} : ∀ {sels : List V} {vals r : GoSlice}, unionByKeys env vals src sels = .ok r →
    ∀ v ∈ r.elems, v ∈ vals.elems ∨ Child src v
  | [], vals, r, h => by unfold unionByKeys at h; cases h; exact fun v hv => .inl hv
  | k :: ks, vals, r, h => by
    unfold unionByKeys at h
    split at h
    · exact unionByKeys_mem h
    · obtain ⟨vals', h1, h⟩ := bind_eq_ok h
      intro v hv
      rcases unionByKeys_mem h v hv with h2 | h2
      · exact valsByKey_mem h1 v h2
      · exact .inr h2

theorem applySelection_lo {f : Nat → V → GoSlice → Res RErr GoSlice} (hf : ∀ k src acc r, f k src acc = .ok r → ∀ v ∈ r.elems, v ∈ acc.elems ∨ Child src v) :
    ∀ {l : List V} {k : Nat} {acc r : GoSlice}, applySelection f k acc l = .ok r → (∀ v ∈ acc.elems, Lo n v) → (∀ v ∈ l, Lo n v) →
      ∀ v ∈ r.elems, Lo n v
  | [], k, acc, r, h, ha, _ => by unfold applySelection at h; cases h; exact ha
  | src :: l, k, acc, r, h, ha, hl => by
    unfold applySelection at h
    obtain ⟨acc', h1, h⟩ := bind_eq_ok h
    refine applySelection_lo hf h (fun v hv => ?_) (fun v hv => hl v (by simp [hv]))
    rcases hf _ _ _ _ h1 v hv with h2 | h2
    · exact ha v h2
    · have := h2.height
      have := hl src (by simp)
      unfold Lo at *
      omega

/-! ### Orders -/

/-- The values of a state are at most so high: those on the stack `k`, the others `n`. -/
structure LowState (n k : Nat) (s : MState) : Prop where
  out : ∀ v ∈ s.out.elems, Lo n v
  dot : Lo n s.dot
  values : ∀ l ∈ s.values, ∀ v ∈ l, Lo n v
  stack : ∀ v ∈ s.stack, Lo k v

theorem LowState.push {n k k' : Nat} {s : MState} (h : LowState n k s) (hk : k ≤ k') {v : V} (hv : Lo k' v) : LowState n k' (s.push v) :=
  ⟨h.out, h.dot, h.values, fun w hw => by
    rcases List.mem_cons.1 hw with rfl | hw
    · exact hv
    · exact (h.stack w hw).mono (by omega)⟩

theorem LowState.onto {n k k' : Nat} {s : MState} (h : LowState n k s) (hk : k ≤ k') {v : V} {st : List V} {t : Nat} (hv : Lo k' v) (hs : ∀ w ∈ st, w ∈ s.stack) :
    LowState n k' { s with stack := v :: st, tick := t } :=
  ⟨h.out, h.dot, h.values, fun w hw => by
    rcases List.mem_cons.1 hw with rfl | hw
    · exact hv
    · exact (h.stack w (hs w hw)).mono (by omega)⟩

theorem LowState.outs {n k k' : Nat} {s : MState} (h : LowState n k s) (hk : k ≤ k') {out : GoSlice} {st : List V} {t : Nat} (ho : ∀ v ∈ out.elems, Lo n v)
    (hs : ∀ w ∈ st, w ∈ s.stack) : LowState n k' { s with out := out, stack := st, tick := t } :=
  ⟨ho, h.dot, h.values, fun w hw => (h.stack w (hs w hw)).mono (by omega)⟩

theorem branch_low {n k k' : Nat} {size : Nat} {t : Int64} {s s' : MState} (h : LowState n k s) (hk : k ≤ k') (hb : branch size t s = .ok s') : LowState n k' s' := by
  unfold branch at hb
  split at hb
  · cases hb
  · cases hb
    exact ⟨h.out, h.dot, h.values, fun v hv => (h.stack v hv).mono (by omega)⟩

theorem looptop_low {n k k' : Nat} {size : Nat} {t : Int64} {vals : List V} {s s' : MState} (h : LowState n k s) (hk : k ≤ k') (hv : ∀ v ∈ vals, Lo n v)
    (hb : looptop size t vals s = .ok s') : LowState n k' s' := by
  unfold looptop at hb
  split at hb
  · exact branch_low h hk hb
  · cases hb
    refine ⟨by simp [GoSlice.elems], ?_, ?_, fun v hv => (h.stack v hv).mono (by omega)⟩
    · cases vals with
      | nil => exact .null
      | cons v r => exact hv v (by simp)
    · intro l hl v hm
      rcases List.mem_cons.1 hl with rfl | hl
      · exact hv v (List.mem_of_mem_tail hm)
      · exact h.values l hl v hm

theorem Child.lo {n : Nat} {src v : V} (h : Child src v) (hs : Lo n src) : Lo n v := by
  have := h.height
  unfold Lo at *
  omega

theorem exec_low {env : Env} {oracle : Oracle} {prog : Program} {root : V} {o : Order} {op : Op} {s s' : MState} {n k k' : Nat}
    (hs : LowState n k s) (hr : Lo n root) (hk : n ≤ k) (hk' : k ≤ k') (hb : op = .array ∨ op = .call → k + 1 ≤ k') (hop : op ≠ .slice) (h : exec env oracle prog root o op s = .ok s') :
    LowState n k' s' := by
  have hval : ∀ {s'}, pushVal prog o s = (Res.ok s' : Res RErr MState) → LowState n k' s' := by
    intro s' h
    unfold pushVal at h
    split at h
    · cases h
    · split at h
      · rename_i v _
        cases h
        refine hs.push hk' ?_
        cases v <;> exact Nat.zero_le _
      · cases h
  have hbin : ∀ {op}, op ≠ .slice → (match s.stack with
      | b :: a :: st => match binop env op a b with
        | some r => (do
          let v ← r
          Res.ok { s with stack := v :: st })
        | none => Res.stuck
      | _ => Res.panic "stack underflow") = (Res.ok s' : Res RErr MState) → LowState n k' s' := by
    intro op hop h
    rcases he : s.stack with _ | ⟨b, _ | ⟨a, st⟩⟩ <;> rw [he] at h
    · cases h
    · cases h
    · dsimp only at h
      split at h
      · rename_i r hb'
        obtain ⟨v, rfl, h⟩ := bind_eq_ok h
        cases h
        have := binop_lo hop (hs.stack a (by simp [he])) (hs.stack b (by simp [he])) hb'
        exact hs.onto hk' (this.mono (by omega)) (fun w hw => by simp [he, hw])
      · cases h
  have hun : ∀ {op}, (match s.stack with
      | [] => Res.panic "stack underflow"
      | v :: st => match unop env op v with
        | some r => Res.ok { s with stack := r :: st }
        | none => Res.stuck) = (Res.ok s' : Res RErr MState) → LowState n k' s' := by
    intro op h
    rcases he : s.stack with _ | ⟨a, st⟩ <;> rw [he] at h
    · cases h
    · dsimp only at h
      split at h
      · rename_i r hb'
        cases h
        have := unop_lo (hs.stack a (by simp [he])) hb'
        exact hs.onto hk' (this.mono (by omega)) (fun w hw => by simp [he, hw])
      · cases h
  have hsel : ∀ {neg : Bool}, (match s.stack with
      | [] => Res.panic "stack underflow"
      | sel :: st =>
        if isNothing sel then Res.ok { s with stack := st, out := some [] }
        else (do
          let out ← applySelection (fun _ el acc => valsByKey env acc el sel neg) 0 (some []) s.out.elems
          Res.ok { s with stack := st, out := out })) = (Res.ok s' : Res RErr MState) → LowState n k' s' := by
    intro neg h
    rcases he : s.stack with _ | ⟨a, st⟩ <;> rw [he] at h
    · cases h
    · dsimp only at h
      split at h
      · cases h
        exact hs.outs hk' (by simp [GoSlice.elems]) (fun w hw => by simp [he, hw])
      · obtain ⟨out, ho, h⟩ := bind_eq_ok h
        cases h
        exact hs.outs hk' (applySelection_lo (fun _ _ _ _ h => valsByKey_mem h) ho (by simp [GoSlice.elems]) hs.out) (fun w hw => by simp [he, hw])
  have hkeep : (match s.stack with
      | [] => Res.panic "stack underflow"
      | v :: st =>
        if !isNothing v && cvb env v then Res.ok { s with stack := st, out := s.out.append s.dot }
        else Res.ok { s with stack := st }) = (Res.ok s' : Res RErr MState) → LowState n k' s' := by
    intro h
    rcases he : s.stack with _ | ⟨a, st⟩ <;> rw [he] at h
    · cases h
    · dsimp only at h
      split at h <;> cases h
      · refine hs.outs hk' (fun v hv => ?_) (fun w hw => by simp [he, hw])
        rcases mem_append.1 hv with hv | rfl
        · exact hs.out v hv
        · exact hs.dot
      · exact hs.outs hk' hs.out (fun w hw => by simp [he, hw])
  have hnsel : ∀ {neg : Bool}, (match s.stack with
      | [] => Res.panic "stack underflow"
      | sel :: st =>
        if isNothing sel then Res.ok { s with stack := st }
        else (do
          let out ← valsByKey env s.out s.dot sel neg
          Res.ok { s with stack := st, out := out })) = (Res.ok s' : Res RErr MState) → LowState n k' s' := by
    intro neg h
    rcases he : s.stack with _ | ⟨a, st⟩ <;> rw [he] at h
    · cases h
    · dsimp only at h
      split at h
      · cases h
        exact hs.outs hk' hs.out (fun w hw => by simp [he, hw])
      · obtain ⟨out, ho, h⟩ := bind_eq_ok h
        cases h
        refine hs.outs hk' (fun v hv => ?_) (fun w hw => by simp [he, hw])
        rcases valsByKey_mem ho v hv with hv | hv
        · exact hs.out v hv
        · exact hv.lo hs.dot
  have hs1 : LowState n k { s with tick := s.tick + 1 } := ⟨hs.out, hs.dot, hs.values, hs.stack⟩
  cases op <;> unfold exec at h <;> dsimp only at h <;> first
    | exact absurd rfl hop
    | (cases h; done)
    | exact hval h
    | exact hbin hop h
    | exact hun (op := .exp) h
    | exact hun (op := .neg) h
    | exact hun (op := .not) h
    | exact hsel h
    | exact hkeep h
    | exact hnsel h
    | skip
  case int =>
    split at h
    · cases h; exact hs.push hk' (.int _)
    · exact hval h
  case bool =>
    split at h
    · cases h
    · cases h; exact hs.push hk' (.bool _)
  case null => cases h; exact hs.push hk' .null
  case wild =>
    obtain ⟨out, ho, h⟩ := bind_eq_ok h
    cases h
    refine hs.outs hk' (applySelection_lo ?_ ho (by simp [GoSlice.elems]) hs.out) (fun w hw => hw)
    intro k src acc r hr v hv
    cases hr
    rcases mem_appendAll.1 hv with hv | hv
    · exact .inl hv
    · exact .inr (mem_children hv)
  case union =>
    obtain ⟨⟨sels, st⟩, hp, h⟩ := bind_eq_ok h
    obtain ⟨out, ho, h⟩ := bind_eq_ok h
    cases h
    exact hs.outs hk' (applySelection_lo (fun _ _ _ _ h => unionByKeys_mem h) ho (by simp [GoSlice.elems]) hs.out) (popN_mem hp).2
  case nestWild =>
    cases h
    refine hs.outs hk' (fun v hv => ?_) (fun w hw => hw)
    rcases mem_appendAll.1 hv with hv | hv
    · exact hs.out v hv
    · exact (mem_children hv).lo hs.dot
  case nestUnion =>
    obtain ⟨⟨sels, st⟩, hp, h⟩ := bind_eq_ok h
    obtain ⟨out, ho, h⟩ := bind_eq_ok h
    cases h
    refine hs.outs hk' (fun v hv => ?_) (popN_mem hp).2
    rcases unionByKeys_mem ho v hv with hv | hv
    · exact hs.out v hv
    · exact hv.lo hs.dot
  case for_ =>
    split at h
    · cases h
    · refine looptop_low hs1 hk' (fun v hv => ?_) h
      obtain ⟨src, h1, h2⟩ := mem_stepping hv
      exact h2.lo (hs.out src h1)
  case nest =>
    split at h
    · cases h
    · refine looptop_low hs1 hk' (fun v hv => ?_) h
      obtain ⟨src, h1, _, h2⟩ := mem_walker hv
      exact (hs.out src h1).desc h2
  case rep =>
    split at h
    · cases h
    · rename_i rest hv
      cases h
      exact ⟨hs.out, .null, fun l hl => hs.values l (by rw [hv]; simp [hl]), fun v hv => (hs.stack v hv).mono (by omega)⟩
    · rename_i js more rest hv
      split at h
      · cases h
      · refine branch_low (s := { s with values := more :: rest, dot := js }) ⟨hs.out, hs.values (js :: more) (by simp [hv]) js (by simp), ?_, hs.stack⟩ hk' h
        intro l hl v hm
        rcases List.mem_cons.1 hl with rfl | hl
        · exact hs.values (js :: l) (by simp [hv]) v (by simp [hm])
        · exact hs.values l (by simp [hv, hl]) v hm
  case root => cases h; exact hs.push hk' (hr.mono (by omega))
  case current => cases h; exact hs.push hk' (hs.dot.mono (by omega))
  case array =>
    obtain ⟨⟨vs, st⟩, hp, h⟩ := bind_eq_ok h
    cases h
    exact hs.onto hk' ((Lo.arr fun v hv => hs.stack v ((popN_mem hp).1 v hv)).mono (hb (.inl rfl))) (popN_mem hp).2
  case call =>
    obtain ⟨⟨args, st⟩, hp, h⟩ := bind_eq_ok h
    dsimp only at h
    split at h
    · obtain ⟨r, hc, h⟩ := bind_eq_ok h
      cases h
      exact hs.onto hk' ((call_lo (n := k) hc).mono (hb (.inr rfl))) (popN_mem hp).2
    · cases h
    · cases h

/-- Whatever an evaluation holds is at most as high as the document, and on the stack by no more than one for every order before that may make
an array. -/
theorem during_low {env : Env} {oracle : Oracle} {p : JSONPath} {root : V} {m : Nat} (hm : m < 2 ^ 22)
    (hl : p.prog.orders.length < 2 ^ 22) (hb : Blocks m 0 p.prog.orders) {s : MState} (h : During env oracle p root s) :
    LowState (height root) (height root + (p.prog.orders.take s.pc).countP builds) s := by
  have good : ∀ k, Good m p.prog.orders k := fun k => good_of_blocks hb [] rfl rfl rfl k (by omega)
  induction h with
  | start =>
    refine ⟨fun v hv => ?_, .null, by simp [MState.init], by simp [MState.init]⟩
    simp only [MState.init, GoSlice.elems, Option.getD_some, List.mem_singleton] at hv
    subst hv
    exact Nat.le_refl _
  | order s o s' hd ho hstep ih =>
    obtain ⟨g1, g2, g3, g4⟩ := good s.pc
    have hh := (during_heights hm hl hb hd).1
    have ih' : LowState (height root) (height root + (p.prog.orders.take s.pc).countP builds) { s with pc := s.pc + 1 } := ⟨ih.out, ih.dot, ih.values, ih.stack⟩
    have key : ∀ op, Does o op → op ≠ .slice → LowState (height root) (height root + (p.prog.orders.take s.pc ++ [o]).countP builds) s' := by
      intro op hd hop
      unfold step at hstep
      simp only at hstep
      rw [hd] at hstep
      rw [List.countP_append]
      refine exec_low ih' (Nat.le_refl _) (by omega) (by omega) ?_ hop hstep
      have hd : Op.ofNat? o.opNum = some op := hd
      rintro (rfl | rfl) <;> simp [List.countP_cons, builds, hd] <;> omega
    rcases g4 o ho with ⟨op, hd, h1, h2⟩ | ⟨hd, hz, t, hp, ht0, htl, _, _⟩
    · have := key op hd (by rintro rfl; exact h2 (by decide))
      unfold step at hstep
      simp only at hstep
      rw [hd] at hstep
      obtain ⟨hpc, _⟩ := exec_straight (s := { s with pc := s.pc + 1 }) (by show s.stack.length < _; omega) h1 hstep
      rw [hpc]
      show LowState _ (_ + (p.prog.orders.take (s.pc + 1)).countP builds) _
      rw [List.take_add_one, ho]
      exact this
    · have hne : s.stack = [] := List.length_eq_zero_iff.1 (by omega)
      have key' : ∀ op, Does o op → op ∈ loopOps → op ≠ .slice → LowState (height root) (height root + (p.prog.orders.take s'.pc).countP builds) s' := by
        intro op hd h1 h2
        have hk := key op hd h2
        unfold step at hstep
        simp only at hstep
        rw [hd] at hstep
        obtain ⟨h3, _⟩ := exec_loop (s := { s with pc := s.pc + 1 }) (by omega) hp h1 hstep
        refine ⟨hk.out, hk.dot, hk.values, ?_⟩
        rw [h3]
        show ∀ v ∈ s.stack, _
        rw [hne]
        simp
      rcases hd with hd | hd | hd
      · exact key' _ hd (by decide) (by simp)
      · exact key' _ hd (by decide) (by simp)
      · exact key' _ hd (by decide) (by simp)

theorem Compile_low {env : Env} {text : Bytes} {p : JSONPath} (h : Compile env text = .ok p) (hl : p.prog.orders.length < 2 ^ 22)
    {oracle : Oracle} {root : V} {s : MState} (hd : During env oracle p root s) :
    LowState (height root) (height root + p.prog.orders.countP builds) s := by
  obtain ⟨path, hp, hw, hc, _, h1, _⟩ := Compile_ok h
  have hb := compile_blocks hw hc hl (path_pushes path)
  have := during_low (by omega) hl hb hd
  have hle : (p.prog.orders.take s.pc).countP builds ≤ p.prog.orders.countP builds := (List.take_sublist _ _).countP_le
  exact ⟨this.out, this.dot, this.values, fun v hv => (this.stack v hv).mono (by omega)⟩

/-! ### Evaluation -/

theorem dStep_same {env : Env} {oracle : Oracle} {pick : MState → Ord} (ho : ∀ s, (pick s).Valid) (d : Nat) (prog : Program) (root : V) (o : Order)
    (s : MState) : Lim (step env oracle prog root o s) (dStep d env oracle pick prog root o s) := by
  unfold dStep step
  dsimp only
  cases Op.ofNat? o.opNum with
  | none => exact .inl rfl
  | some op => exact dExec_same (ho s) d prog root o op _

theorem dRun_same {env : Env} {oracle : Oracle} {pick : MState → Ord} (ho : ∀ s, (pick s).Valid) (d : Nat) (prog : Program) (root : V)
    {r : Res RErr GoSlice} : ∀ (f : Nat) (s : MState), runFuel env oracle prog root f s = some r →
      dRun d env oracle pick prog root s = some r ∨ dRun d env oracle pick prog root s = some (.panic "stack overflow")
  | 0, s, h => by simp [runFuel] at h
  | f + 1, s, h => by
    rw [dRun]
    unfold runFuel at h
    cases he : prog.orders[s.pc]? with
    | none => rw [he] at h; exact .inl h
    | some o =>
      rw [he] at h
      simp only at h ⊢
      rcases dStep_same ho d prog root o s with hs | hs
      · rw [hs]
        cases hs' : step env oracle prog root o s with
        | ok s' => rw [hs'] at h; exact dRun_same ho d prog root f s' h
        | err e => rw [hs'] at h; exact .inl h
        | panic m => rw [hs'] at h; exact .inl h
        | stuck => rw [hs'] at h; exact .inl h
      · rw [hs]
        exact .inr rfl

theorem dRun_enough {env : Env} {oracle : Oracle} {pick : MState → Ord} (ho : ∀ s, (pick s).Valid) {d : Nat} {p : JSONPath} {root : V}
    (hd : ∀ s, During env oracle p root s → LowState (d - 1) (d - 1) s) (h0 : 0 < d)
    {r : Res RErr GoSlice} : ∀ (f : Nat) (s : MState), During env oracle p root s → runFuel env oracle p.prog root f s = some r →
      dRun d env oracle pick p.prog root s = some r
  | 0, s, _, h => by simp [runFuel] at h
  | f + 1, s, hs, h => by
    rw [dRun]
    unfold runFuel at h
    cases he : p.prog.orders[s.pc]? with
    | none => rw [he] at h; exact h
    | some o =>
      rw [he] at h
      simp only at h ⊢
      have hst : dStep d env oracle pick p.prog root o s = step env oracle p.prog root o s := by
        unfold dStep step
        dsimp only
        cases Op.ofNat? o.opNum with
        | none => rfl
        | some op =>
          refine dExec_enough (ho s) d p.prog root o op _ (fun v hv => ?_) (fun v hv => ?_)
          · have := (hd s hs).stack v hv
            unfold Lo at this
            omega
          · have := (hd s hs).out v hv
            unfold Lo at this
            omega
      rw [hst]
      cases hs' : step env oracle p.prog root o s with
      | ok s' => rw [hs'] at h; exact dRun_enough ho hd h0 f s' (.order s o s' hs he hs') h
      | err e => rw [hs'] at h; exact h
      | panic m => rw [hs'] at h; exact h
      | stuck => rw [hs'] at h; exact h

theorem dRun_panic {d : Nat} {env : Env} {oracle : Oracle} {pick : MState → Ord} {prog : Program} {root : V} {s : MState} {o : Order} {m : String}
    (h : prog.orders[s.pc]? = some o) (hs : dStep d env oracle pick prog root o s = .panic m) : dRun d env oracle pick prog root s = some (.panic m) := by
  rw [dRun, h]
  simp only
  rw [hs]

theorem dRun_done {d : Nat} {env : Env} {oracle : Oracle} {pick : MState → Ord} {prog : Program} {root : V} {s : MState}
    (h : prog.orders[s.pc]? = none) : dRun d env oracle pick prog root s = some (.ok s.result) := by
  rw [dRun, h]

theorem dRun_order {d : Nat} {env : Env} {oracle : Oracle} {pick : MState → Ord} {prog : Program} {root : V} {s s' : MState} {o : Order}
    (h : prog.orders[s.pc]? = some o) (hs : dStep d env oracle pick prog root o s = .ok s') :
    dRun d env oracle pick prog root s = dRun d env oracle pick prog root s' := by
  rw [dRun, h]
  simp only
  rw [hs]

/-! ### Towers -/

theorem tower_height : ∀ n, height (tower n) = n
  | 0 => rfl
  | n + 1 => by simp [tower, height, heights, tower_height n]

theorem tower_structure : ∀ n, isStructure (tower n) = true
  | 0 => rfl
  | _ + 1 => rfl

theorem dWalkdown_tower (ord : Ord) : ∀ (n d : Nat) (loc : List Nat), d ≤ n → dWalkdown ord loc (tower n) d = .panic "stack overflow"
  | 0, 0, loc, _ => by rw [dWalkdown.eq_def]; rfl
  | n + 1, 0, loc, _ => by rw [dWalkdown.eq_def]; rfl
  | n + 1, d + 1, loc, h => by
    rw [tower, dWalkdown]
    show (dWalkElems ord loc 0 [tower n] d >>= _) = _
    rw [dWalkElems, if_pos (tower_structure n), dWalkdown_tower ord n d _ (by omega)]
    rfl

theorem dEqVal_tower (env : Env) (ord : Ord) : ∀ (n d : Nat) (loc : List Nat), d ≤ n → dEqVal env ord loc (tower n) (tower n) d = .panic "stack overflow"
  | 0, 0, loc, _ => by rw [dEqVal.eq_def]; rfl
  | n + 1, 0, loc, _ => by rw [dEqVal.eq_def]; rfl
  | n + 1, d + 1, loc, h => by
    rw [tower, dEqVal.eq_def]
    show (dEqElems env ord loc 0 [tower n] [tower n] d) = _
    rw [dEqElems, dEqVal_tower env ord n d _ (by omega)]
    rfl

end JP
