import Verif.Spec.Numbers
import Verif.Proof.Select
import Verif.Proof.Perm
/-!
Evaluation commutes with the replacement of a Go `int` by the `int64` of the same value.
-/
namespace JP
open Spec

mutual
/-- The value with those Go `int`s in it that `P` selects replaced. -/
def V.soft (P : Int64 → Bool) : V → V
  | .gint n => if P n then .int n else .gint n
  | .arr xs => .arr (softs P xs)
  | .obj kvs => .obj (softm P kvs)
  | v => v
def softs (P : Int64 → Bool) : List V → List V
  | [] => []
  | x :: xs => x.soft P :: softs P xs
def softm (P : Int64 → Bool) : List (Bytes × V) → List (Bytes × V)
  | [] => []
  | (k, x) :: kvs => (k, x.soft P) :: softm P kvs
end

/-- The members of an object, with their values replaced. -/
def softKV (P : Int64 → Bool) (kv : Bytes × V) : Bytes × V := (kv.1, kv.2.soft P)

theorem softs_eq (P : Int64 → Bool) : ∀ xs, softs P xs = xs.map (V.soft P)
  | [] => by simp [softs]
  | x :: xs => by simp [softs, softs_eq P xs]

theorem softm_eq (P : Int64 → Bool) : ∀ kvs, softm P kvs = kvs.map (softKV P)
  | [] => by simp [softm]
  | (k, x) :: kvs => by simp [softm, softm_eq P kvs, softKV]

section
variable {P : Int64 → Bool}

@[simp] theorem soft_null : V.soft P .null = .null := by simp [V.soft]
@[simp] theorem soft_bool (b) : V.soft P (.bool b) = .bool b := by simp [V.soft]
@[simp] theorem soft_int (b) : V.soft P (.int b) = .int b := by simp [V.soft]
@[simp] theorem soft_float (b) : V.soft P (.float b) = .float b := by simp [V.soft]
@[simp] theorem soft_str (b) : V.soft P (.str b) = .str b := by simp [V.soft]
@[simp] theorem soft_num (b) : V.soft P (.num b) = .num b := by simp [V.soft]
@[simp] theorem soft_name (b) : V.soft P (.name b) = .name b := by simp [V.soft]
@[simp] theorem soft_re (b) : V.soft P (.re b) = .re b := by simp [V.soft]
@[simp] theorem soft_slice (b) : V.soft P (.slice b) = .slice b := by simp [V.soft]
@[simp] theorem soft_err (b) : V.soft P (.err b) = .err b := by simp [V.soft]
@[simp] theorem soft_nothing : V.soft P .nothing = .nothing := by simp [V.nothing]
@[simp] theorem soft_arr (xs) : V.soft P (.arr xs) = .arr (xs.map (V.soft P)) := by simp [V.soft, softs_eq]
@[simp] theorem soft_obj (kvs) : V.soft P (.obj kvs) = .obj (kvs.map (softKV P)) := by simp [V.soft, softm_eq]

theorem soft_gint (n : Int64) : (P n = true ∧ V.soft P (.gint n) = .int n) ∨ (P n = false ∧ V.soft P (.gint n) = .gint n) := by
  cases h : P n <;> simp [V.soft, h]

/-- Functions of the outermost constructor that do not tell the two types apart. -/
theorem soft_outer {α : Type} (f : V → α) (h : ∀ n, f (.int n) = f (.gint n)) (ha : ∀ xs, f (.arr (xs.map (V.soft P))) = f (.arr xs))
    (ho : ∀ kvs, f (.obj (kvs.map (softKV P))) = f (.obj kvs)) (v : V) : f (v.soft P) = f v := by
  cases v with
  | gint n => rcases soft_gint (P := P) n with ⟨_, e⟩ | ⟨_, e⟩ <;> rw [e]; exact h n
  | arr xs => simpa using ha xs
  | obj kvs => simpa using ho kvs
  | _ => simp

@[simp] theorem isString_soft (v : V) : isString (v.soft P) = isString v := soft_outer _ (fun _ => rfl) (fun _ => rfl) (fun _ => rfl) v
@[simp] theorem isInt_soft (v : V) : isInt (v.soft P) = isInt v := soft_outer _ (fun _ => rfl) (fun _ => rfl) (fun _ => rfl) v
@[simp] theorem isFloat_soft (v : V) : isFloat (v.soft P) = isFloat v := soft_outer _ (fun _ => rfl) (fun _ => rfl) (fun _ => rfl) v
@[simp] theorem isArith_soft (v : V) : isArith (v.soft P) = isArith v := soft_outer _ (fun _ => rfl) (fun _ => rfl) (fun _ => rfl) v
@[simp] theorem isSimple_soft (v : V) : isSimple (v.soft P) = isSimple v := soft_outer _ (fun _ => rfl) (fun _ => rfl) (fun _ => rfl) v
@[simp] theorem isStructure_soft (v : V) : isStructure (v.soft P) = isStructure v := soft_outer _ (fun _ => rfl) (fun _ => rfl) (fun _ => rfl) v
@[simp] theorem isNothing_soft (v : V) : isNothing (v.soft P) = isNothing v := soft_outer _ (fun _ => rfl) (fun _ => rfl) (fun _ => rfl) v
@[simp] theorem cvs_soft (v : V) : cvs (v.soft P) = cvs v := soft_outer _ (fun _ => rfl) (fun _ => rfl) (fun _ => rfl) v
@[simp] theorem cvi_soft (env) (v : V) : cvi env (v.soft P) = cvi env v := soft_outer _ (fun _ => rfl) (fun _ => rfl) (fun _ => rfl) v
@[simp] theorem cvf_soft (env) (v : V) : cvf env (v.soft P) = cvf env v := soft_outer _ (fun _ => rfl) (fun _ => rfl) (fun _ => rfl) v
@[simp] theorem cvb_soft (env) (v : V) : cvb env (v.soft P) = cvb env v := soft_outer _ (fun _ => rfl) (fun _ => rfl) (fun _ => rfl) v
@[simp] theorem typeOf_soft (v : V) : typeOf (v.soft P) = typeOf v := soft_outer _ (fun _ => rfl) (fun _ => rfl) (fun _ => rfl) v

theorem lookup_soft (kvs : List (Bytes × V)) (k : Bytes) : lookup (kvs.map (softKV P)) k = (lookup kvs k).map (V.soft P) := by
  induction kvs with
  | nil => rfl
  | cons kv r ih =>
    obtain ⟨k', v⟩ := kv
    simp only [List.map_cons, softKV, lookup]
    split
    · rfl
    · exact ih

/-! ### Equality -/

@[simp] theorem eqNum_soft (env : Env) (a b : V) : eqNum env (a.soft P) (b.soft P) = eqNum env a b := by
  simp [eqNum]

theorem eqNum_soft_l (env : Env) (a b : V) : eqNum env (a.soft P) b = eqNum env a b := by
  simp [eqNum]

theorem eqNum_soft_r (env : Env) (a b : V) : eqNum env a (b.soft P) = eqNum env a b := by
  simp [eqNum]

theorem eqArrayS_soft (xs : List V) (b : Bytes) : eqArrayS (xs.map (V.soft P)) b = eqArrayS xs b := by
  match xs with
  | [] => rfl
  | [x] => simp [eqArrayS]
  | _ :: _ :: _ => rfl

theorem eqArrayN_soft (env : Env) (xs : List V) (b : V) : eqArrayN env (xs.map (V.soft P)) (b.soft P) = eqArrayN env xs b := by
  match xs with
  | [] => simp only [List.map_nil, eqArrayN]; exact eqNum_soft_l ..
  | [x] => simp [eqArrayN]
  | _ :: _ :: _ => rfl

theorem eqArrayB_soft (env : Env) (a b : V) : eqArrayB env (a.soft P) (b.soft P) = eqArrayB env a b := by
  cases a with
  | gint n => rcases soft_gint (P := P) n with ⟨_, e⟩ | ⟨_, e⟩ <;> rw [e] <;> rfl
  | arr xs =>
    match xs with
    | [] => simp [eqArrayB]
    | [x] => simp [eqArrayB]
    | _ :: _ :: _ => simp [eqArrayB]
  | obj kvs => simp [eqArrayB]
  | _ => simp [eqArrayB]

/-- The part of `eqMixed` for an array on one side. -/
private theorem mixedS_soft (a b : V) :
    (match a.soft P, b.soft P with
      | .arr xs, _ => eqArrayS xs (cvs b)
      | _, .arr ys => eqArrayS ys (cvs a)
      | _, _ => false) =
    (match a, b with
      | .arr xs, _ => eqArrayS xs (cvs b)
      | _, .arr ys => eqArrayS ys (cvs a)
      | _, _ => false) := by
  have key : ∀ a' : V, (∀ xs, a' ≠ .arr xs) → ∀ b' : V, (match a', b' with
      | .arr xs, _ => eqArrayS xs (cvs b)
      | _, .arr ys => eqArrayS ys (cvs a)
      | _, _ => false) = (match b' with | .arr ys => eqArrayS ys (cvs a) | _ => false) := by
    intro a' h b'
    cases a' <;> cases b' <;> first | rfl | exact absurd rfl (h _)
  by_cases ha : ∃ xs, a = .arr xs
  · obtain ⟨xs, rfl⟩ := ha
    simp [eqArrayS_soft]
  · rw [key a (fun xs h => ha ⟨xs, h⟩), key (a.soft P)]
    · cases b with
      | gint n => rcases soft_gint (P := P) n with ⟨_, e⟩ | ⟨_, e⟩ <;> rw [e]
      | arr ys => simp [eqArrayS_soft]
      | _ => simp
    · intro xs h
      cases a with
      | gint n => rcases soft_gint (P := P) n with ⟨_, e⟩ | ⟨_, e⟩ <;> rw [e] at h <;> cases h
      | arr ys => exact ha ⟨_, rfl⟩
      | _ => simp at h

private theorem mixedN_soft (env : Env) (a b : V) :
    (match a.soft P, b.soft P with
      | .arr xs, _ => eqArrayN env xs (b.soft P)
      | _, .arr ys => eqArrayN env ys (a.soft P)
      | _, _ => false) =
    (match a, b with
      | .arr xs, _ => eqArrayN env xs b
      | _, .arr ys => eqArrayN env ys a
      | _, _ => false) := by
  have key : ∀ a' : V, (∀ xs, a' ≠ .arr xs) → ∀ b' : V, (match a', b' with
      | .arr xs, _ => eqArrayN env xs b'
      | _, .arr ys => eqArrayN env ys a'
      | _, _ => false) = (match b' with | .arr ys => eqArrayN env ys a' | _ => false) := by
    intro a' h b'
    cases a' <;> cases b' <;> first | rfl | exact absurd rfl (h _)
  by_cases ha : ∃ xs, a = .arr xs
  · obtain ⟨xs, rfl⟩ := ha
    simp [eqArrayN_soft]
  · rw [key a (fun xs h => ha ⟨xs, h⟩), key (a.soft P)]
    · cases b with
      | gint n => rcases soft_gint (P := P) n with ⟨_, e⟩ | ⟨_, e⟩ <;> rw [e]
      | arr ys => simp [eqArrayN_soft]
      | _ => simp
    · intro xs h
      cases a with
      | gint n => rcases soft_gint (P := P) n with ⟨_, e⟩ | ⟨_, e⟩ <;> rw [e] at h <;> cases h
      | arr ys => exact ha ⟨_, rfl⟩
      | _ => simp at h

theorem eqMixed_soft (env : Env) (a b : V) : eqMixed env (a.soft P) (b.soft P) = eqMixed env a b := by
  unfold eqMixed
  simp only [typeOf_soft, cvs_soft, cvf_soft, isFloat_soft, eqNum_soft, eqArrayB_soft]
  cases typeOf a <;> cases typeOf b <;> first | rfl | exact mixedS_soft a b | exact mixedN_soft env a b

private theorem eqVal_flat (env : Env) (a b : V) (ha : ∀ xs, a ≠ .arr xs) (ho : ∀ kvs, a ≠ .obj kvs) :
    eqVal env (a.soft P) (b.soft P) = eqVal env a b := by
  rw [eqVal.eq_def env a b, eqVal.eq_def env (a.soft P) (b.soft P), typeOf_soft, typeOf_soft, eqMixed_soft]
  split
  · rfl
  · cases a with
    | gint n =>
      have := eqNum_soft (P := P) env (.gint n) b
      rcases soft_gint (P := P) n with ⟨_, e⟩ | ⟨_, e⟩ <;> rw [e] at this ⊢ <;> exact this
    | arr xs => exact absurd rfl (ha xs)
    | obj kvs => exact absurd rfl (ho kvs)
    | str s => simp only [soft_str]; exact soft_outer (fun v => (match v with | .str t => s == t | _ => false)) (fun _ => rfl) (fun _ => rfl) (fun _ => rfl) b
    | bool s => simp only [soft_bool]; exact soft_outer (fun v => (match v with | .bool t => s == t | _ => false)) (fun _ => rfl) (fun _ => rfl) (fun _ => rfl) b
    | int n => simp only [soft_int]; exact eqNum_soft_r ..
    | float n => simp only [soft_float]; exact eqNum_soft_r ..
    | _ => simp

mutual
theorem eqVal_soft (env : Env) : ∀ a b : V, eqVal env (a.soft P) (b.soft P) = eqVal env a b
  | .arr xs, b => by
    rw [eqVal.eq_def env (.arr xs) b, eqVal.eq_def env (V.soft P _) (b.soft P), typeOf_soft, typeOf_soft, eqMixed_soft, soft_arr]
    split
    · rfl
    · simp only
      cases b with
      | gint n => rcases soft_gint (P := P) n with ⟨_, e⟩ | ⟨_, e⟩ <;> rw [e]
      | arr ys => simp only [soft_arr, List.length_map]; rw [eqElems_soft env xs ys]
      | _ => simp
  | .obj xs, b => by
    rw [eqVal.eq_def env (.obj xs) b, eqVal.eq_def env (V.soft P _) (b.soft P), typeOf_soft, typeOf_soft, eqMixed_soft, soft_obj]
    split
    · rfl
    · simp only
      cases b with
      | gint n => rcases soft_gint (P := P) n with ⟨_, e⟩ | ⟨_, e⟩ <;> rw [e]
      | obj ys => simp only [soft_obj, List.length_map]; rw [eqMembers_soft env xs ys]
      | _ => simp
  | .null, b | .bool _, b | .gint _, b | .int _, b | .float _, b | .str _, b | .num _, b | .name _, b | .re _, b | .slice _, b
  | .err _, b => by
    apply eqVal_flat <;> intro _ h <;> cases h
theorem eqElems_soft (env : Env) : ∀ xs ys : List V, eqElems env (xs.map (V.soft P)) (ys.map (V.soft P)) = eqElems env xs ys
  | [], _ => by simp [eqElems]
  | _ :: _, [] => by simp [eqElems]
  | x :: xs, y :: ys => by simp [eqElems, eqVal_soft env x y, eqElems_soft env xs ys]
theorem eqMembers_soft (env : Env) : ∀ xs ys : List (Bytes × V), eqMembers env (xs.map (softKV P)) (ys.map (softKV P)) = eqMembers env xs ys
  | [], _ => by simp [eqMembers]
  | (k, x) :: xs, ys => by
    have : ((lookup (ys.map (softKV P)) k).getD .null) = ((lookup ys k).getD .null).soft P := by
      rw [lookup_soft]; cases lookup ys k <;> simp
    simp only [List.map_cons, softKV, eqMembers]
    rw [this, eqVal_soft env x, eqMembers_soft env xs ys]
end

theorem searchJSON_soft (env : Env) (xs : List V) (v : V) (f : Bool) :
    searchJSON env (xs.map (V.soft P)) (v.soft P) f = searchJSON env xs v f := by
  induction xs with
  | nil => rfl
  | cons x r ih => simp only [List.map_cons, searchJSON, eqVal_soft, ih]

theorem containsElem_soft (env : Env) (xs : List V) (v : V) :
    containsElem env (v.soft P) (xs.map (V.soft P)) = containsElem env v xs := by
  induction xs with
  | nil => rfl
  | cons x r ih => simp only [List.map_cons, containsElem, eqVal_soft, ih]

/-! ### Results -/

/-- The error with the value that it mentions replaced. -/
def RErr.soft (P : Int64 → Bool) : RErr → RErr
  | .matchRight v => .matchRight (v.soft P)
  | .matchLeft v => .matchLeft (v.soft P)
  | .inRight op v => .inRight op (v.soft P)
  | e => e

/-- A result replaced. -/
def Res.soft {α β : Type} (P : Int64 → Bool) (f : α → β) : Res RErr α → Res RErr β
  | .ok a => .ok (f a)
  | .err e => .err (e.soft P)
  | .panic m => .panic m
  | .stuck => .stuck

theorem soft_bind {α β γ δ : Type} {f : α → β} {g : γ → δ} {x : Res RErr α} {y : Res RErr β} {k : α → Res RErr γ} {k' : β → Res RErr δ}
    (hx : y = x.soft P f) (h : ∀ a, x = .ok a → k' (f a) = (k a).soft P g) : (y >>= k') = (x >>= k).soft P g := by
  subst hx
  cases x with
  | ok a => exact h a rfl
  | _ => rfl

/-! ### Functions -/

theorem arithLoop_soft (env : Env) (f : Nat → F64 → F64 → F64) (xs : List V) : ∀ i r,
    arithLoop env f i r (xs.map (V.soft P)) = (arithLoop env f i r xs).soft P := by
  induction xs with
  | nil => intro i r; simp [arithLoop]
  | cons x r ih =>
    intro i r
    simp only [List.map_cons, arithLoop, isArith_soft, cvf_soft, ih]
    split <;> simp

theorem arithArrayOp_soft (env : Env) (f : Nat → F64 → F64 → F64) (xs : List V) :
    arithArrayOp env (xs.map (V.soft P)) f = (arithArrayOp env xs f).soft P := by
  cases xs with
  | nil => simp [arithArrayOp]
  | cons x r => exact arithLoop_soft env f (x :: r) 0 .zero

theorem avgLoop_soft (env : Env) (n : Nat) (xs : List V) : ∀ r,
    avgLoop env n r (xs.map (V.soft P)) = (avgLoop env n r xs).soft P := by
  induction xs with
  | nil => intro r; simp [avgLoop]
  | cons x r ih =>
    intro r
    simp only [List.map_cons, avgLoop, isArith_soft, cvf_soft, ih]
    split <;> simp

theorem stringLoop_soft (f : Nat → Bytes → Bytes → Bytes) (xs : List V) : ∀ i r,
    stringLoop f i r (xs.map (V.soft P)) = (stringLoop f i r xs).soft P := by
  induction xs with
  | nil => intro i r; simp [stringLoop]
  | cons x r ih =>
    intro i r
    cases x with
    | gint n => rcases soft_gint (P := P) n with ⟨_, e⟩ | ⟨_, e⟩ <;> simp [e, stringLoop]
    | str s => simp [stringLoop, ih]
    | _ => simp [stringLoop]

theorem stringArrayOp_soft (f : Nat → Bytes → Bytes → Bytes) (xs : List V) :
    stringArrayOp (xs.map (V.soft P)) f = (stringArrayOp xs f).soft P := by
  cases xs with
  | nil => simp [stringArrayOp]
  | cons x r => exact stringLoop_soft f (x :: r) 0 []

theorem minMaxArray_soft (env : Env) (xs : List V) (f : Nat → F64 → F64 → F64) (g : Nat → Bytes → Bytes → Bytes) :
    minMaxArray env (xs.map (V.soft P)) f g = (minMaxArray env xs f g).soft P := by
  cases xs with
  | nil => simp [minMaxArray]
  | cons x r =>
    have ha := arithArrayOp_soft (P := P) env f (x :: r)
    have hs := stringArrayOp_soft (P := P) g (x :: r)
    cases x with
    | gint n =>
      rw [List.map_cons] at ha ⊢
      rcases soft_gint (P := P) n with ⟨_, e⟩ | ⟨_, e⟩ <;> rw [e] at ha ⊢ <;> exact ha
    | int n => simpa [minMaxArray] using ha
    | float n => simpa [minMaxArray] using ha
    | str n => simpa [minMaxArray] using hs
    | _ => simp [minMaxArray]

theorem stringArgs_soft (args : List V) : stringArgs (args.map (V.soft P)) = stringArgs args := by
  have h1 : ∀ v : V, (∃ s, v = .str s ∧ v.soft P = .str s) ∨ ((∀ s, v ≠ .str s) ∧ ∀ s, v.soft P ≠ .str s) := by
    intro v
    cases v with
    | gint n => rcases soft_gint (P := P) n with ⟨_, e⟩ | ⟨_, e⟩ <;> simp [e]
    | _ => simp
  have key : ∀ l : List V, (∀ a b, l ≠ [.str a, .str b]) → stringArgs l = none := by
    intro l h
    unfold stringArgs
    split
    · exact absurd rfl (h _ _)
    · rfl
  match args with
  | [] => rfl
  | [_] => rw [key [_] (by simp), key _ (by simp)]
  | [a, b] =>
    rcases h1 a with ⟨s, rfl, e⟩ | ⟨h2, h3⟩
    · rcases h1 b with ⟨t, rfl, e'⟩ | ⟨h2, h3⟩
      · simp
      · rw [key [_, b] (by intro _ _ h; simp only [List.cons.injEq] at h; exact h2 _ h.2.1),
          key _ (by intro _ _ h; simp only [List.map_cons, List.cons.injEq] at h; exact h3 _ h.2.1)]
    · rw [key [a, b] (by intro _ _ h; simp only [List.cons.injEq] at h; exact h2 _ h.1),
        key _ (by intro _ _ h; simp only [List.map_cons, List.cons.injEq] at h; exact h3 _ h.1)]
  | _ :: _ :: _ :: _ => rw [key (_ :: _ :: _ :: _) (by simp), key _ (by simp)]

theorem permute_map {α β : Type} (f : α → β) (p : List Nat) (xs : List α) : permute p (xs.map f) = (permute p xs).map f := by
  unfold permute
  rw [List.map_filterMap]
  congr 1
  funext i
  simp

private theorem abs_soft {n : Int64} (h : n ≠ Int64.minValue) (hn : n < 0) : ¬ -n < 0 := by
  intro hm
  rw [Int64.lt_iff_toInt_lt] at hn hm
  have h1 : n.toInt ≠ -2 ^ 63 := fun e => h (Int64.toInt_inj.mp (by rw [e]; rfl))
  have h2 := n.le_toInt
  have h3 := n.toInt_lt
  rw [Int64.toInt_neg, Int.bmod_eq_of_le (by omega) (by omega)] at hm
  simp at hn hm; omega

theorem apply_soft (env : Env) (ord : Ord) (f : Fn) (hf : P Int64.minValue = true → f ≠ .abs) (args : List V) :
    f.apply env ord (args.map (V.soft P)) = (f.apply env ord args).soft P (V.soft P) := by
  have hstr := stringArgs_soft (P := P) args
  have hmm := fun a b => minMaxArray_soft (P := P) env args a b
  have hc := fun x xs => containsElem_soft (P := P) env xs x
  cases f with
  | abs =>
    cases args with
    | nil => rfl
    | cons a r =>
      cases a with
      | gint n =>
        rcases soft_gint (P := P) n with ⟨hp, e⟩ | ⟨_, e⟩
        · have hn : n ≠ Int64.minValue := fun h => hf (h ▸ hp) rfl
          simp only [List.map_cons, e, Fn.apply, Res.soft]
          split
          · next h => rw [if_neg (abs_soft hn h)]; simp
          · simp
        · simp [e, Fn.apply, Res.soft]
      | int n =>
        simp only [List.map_cons, soft_int, Fn.apply, Res.soft]
        split
        · split <;> simp
        · simp
      | _ => simp [Fn.apply, Res.soft]
  | ceil | floor =>
    cases args with
    | nil => rfl
    | cons a r =>
      cases a with
      | gint n => rcases soft_gint (P := P) n with ⟨hp, e⟩ | ⟨_, e⟩ <;> simp [e, Fn.apply, Res.soft]
      | _ => simp [Fn.apply, Res.soft]
  | to_number =>
    cases args with
    | nil => rfl
    | cons a r =>
      cases a with
      | gint n => rcases soft_gint (P := P) n with ⟨hp, e⟩ | ⟨_, e⟩ <;> simp [e, Fn.apply, Res.soft]
      | str s => simp only [List.map_cons, soft_str, Fn.apply, Res.soft]; split <;> simp
      | _ => simp [Fn.apply, Res.soft]
  | avg =>
    cases args with
    | nil => rfl
    | cons a r =>
      cases a with
      | gint n => rcases soft_gint (P := P) n with ⟨hp, e⟩ | ⟨_, e⟩ <;> simp [e, Fn.apply, Res.soft]
      | arr xs => simp [Fn.apply, Res.soft, avgLoop_soft]
      | _ => simp [Fn.apply, Res.soft]
  | prod | sum =>
    cases args with
    | nil => rfl
    | cons a r =>
      cases a with
      | gint n => rcases soft_gint (P := P) n with ⟨hp, e⟩ | ⟨_, e⟩ <;> simp [e, Fn.apply, Res.soft]
      | arr xs => cases xs <;> simp [Fn.apply, Res.soft, ← arithArrayOp_soft]
      | _ => simp [Fn.apply, Res.soft]
  | keys =>
    cases args with
    | nil => rfl
    | cons a r =>
      cases a with
      | gint n => rcases soft_gint (P := P) n with ⟨hp, e⟩ | ⟨_, e⟩ <;> simp [e, Fn.apply, Res.soft]
      | obj kvs => simp [Fn.apply, Res.soft, ← permute_map, Function.comp_def, softKV]
      | _ => simp [Fn.apply, Res.soft]
  | length =>
    cases args with
    | nil => rfl
    | cons a r =>
      cases a with
      | gint n => rcases soft_gint (P := P) n with ⟨hp, e⟩ | ⟨_, e⟩ <;> simp [e, Fn.apply, Res.soft]
      | _ => simp [Fn.apply, Res.soft]
  | contains =>
    cases args with
    | nil => rfl
    | cons a r =>
      cases a with
      | gint n => rcases soft_gint (P := P) n with ⟨hp, e⟩ | ⟨_, e⟩ <;> simp [e, Fn.apply, Res.soft]
      | str s =>
        cases r with
        | nil => rfl
        | cons b r =>
          cases b with
          | gint n => rcases soft_gint (P := P) n with ⟨hp, e⟩ | ⟨_, e⟩ <;> simp [e, Fn.apply, Res.soft]
          | _ => simp [Fn.apply, Res.soft]
      | arr xs =>
        cases r with
        | nil => cases xs <;> simp [Fn.apply, Res.soft]
        | cons b r => simp [Fn.apply, Res.soft, hc]
      | _ => simp [Fn.apply, Res.soft]
  | starts_with | ends_with =>
    cases args with
    | nil => simp [Fn.apply, stringArgs, Res.soft]
    | cons a r =>
      rw [List.map_cons] at hstr ⊢
      simp only [Fn.apply, hstr, Res.soft]
      split <;> simp
  | tokenize =>
    cases args with
    | nil => simp [Fn.apply, stringArgs, Res.soft]
    | cons a r =>
      rw [List.map_cons] at hstr ⊢
      simp only [Fn.apply, hstr, Res.soft]
      split
      · split <;> simp
      · simp
  | max | min =>
    match args with
    | [] => simp [Fn.apply, Res.soft]
    | [a] =>
      cases a with
      | gint n => rcases soft_gint (P := P) n with ⟨hp, e⟩ | ⟨_, e⟩ <;> simp [e, Fn.apply, Res.soft]
      | arr xs => simp [Fn.apply, Res.soft, minMaxArray_soft]
      | _ => simp [Fn.apply, Res.soft]
    | a :: b :: r => simpa [Fn.apply, Res.soft] using hmm _ _

theorem ofName_abs {id : Bytes} (h : Fn.ofName id = some .abs) : id = b! "abs" := by
  unfold Fn.ofName at h
  rcases ite_some h with ⟨h, _⟩ | h
  · exact h
  iterate 14 (rcases ite_some h with ⟨_, h⟩ | h; · exact absurd h (by decide))
  cases h

theorem call_soft (env : Env) (ord : Ord) (id : Bytes) (hid : P Int64.minValue = true → id ≠ b! "abs") (args : List V) :
    call env ord id (args.map (V.soft P)) = (call env ord id args).soft P (V.soft P) := by
  unfold call
  split
  · rfl
  · next f hf =>
    have h := apply_soft (P := P) env ord f (fun hP h => by subst h; exact hid hP (ofName_abs hf)) args
    split
    · simp only [List.length_map]
      split
      · rfl
      · exact h
    · exact h

/-! ### Texts -/

mutual
theorem sprint_soft (env : Env) : ∀ v : V, sprint env (v.soft P) = sprint env v
  | .arr xs => by simp [sprint, sprints_soft env xs]
  | .obj kvs => by simp [sprint, sprintMembers_soft env kvs]
  | .gint n => by rcases soft_gint (P := P) n with ⟨_, e⟩ | ⟨_, e⟩ <;> rw [e]; simp [sprint]
  | .null | .bool _ | .int _ | .float _ | .str _ | .num _ | .name _ | .re _ | .slice _ | .err _ => by simp
theorem sprints_soft (env : Env) : ∀ xs : List V, sprints env (xs.map (V.soft P)) = sprints env xs
  | [] => rfl
  | x :: xs => by simp [sprints, sprint_soft env x, sprints_soft env xs]
theorem sprintMembers_soft (env : Env) : ∀ kvs : List (Bytes × V), sprintMembers env (kvs.map (softKV P)) = sprintMembers env kvs
  | [] => rfl
  | (k, x) :: kvs => by simp [sprintMembers, softKV, sprint_soft env x, sprintMembers_soft env kvs]
end

@[simp] theorem mapKey_soft (env : Env) (v : V) : mapKey env (v.soft P) = mapKey env v := by
  have h := sprint_soft (P := P) env v
  cases v with
  | gint n => rcases soft_gint (P := P) n with ⟨_, e⟩ | ⟨_, e⟩ <;> rw [e] at h ⊢; exact h
  | arr xs => simpa [mapKey] using h
  | obj xs => simpa [mapKey] using h
  | _ => simp

/-! ### Selection -/

theorem goIndex_soft (xs : List V) (i : Int64) : goIndex (xs.map (V.soft P)) i = (goIndex xs i).map (V.soft P) := by
  unfold goIndex
  split
  · rfl
  · simp

theorem sliceLoop_soft (up : Bool) (xs : List V) (stop stride : Int64) : ∀ f i acc,
    sliceLoop up (xs.map (V.soft P)) stop stride f i (acc.map (V.soft P)) =
      (sliceLoop up xs stop stride f i acc).soft P (List.map (V.soft P)) := by
  intro f
  induction f with
  | zero => intro i acc; rfl
  | succ f ih =>
    intro i acc
    unfold sliceLoop
    rw [goIndex_soft]
    by_cases h : (if up = true then i < stop else i > stop)
    · rw [if_pos h, if_pos h]
      cases goIndex xs i with
      | none => rfl
      | some v =>
        have := ih (i + stride) (acc ++ [v])
        simpa using this
    · rw [if_neg h, if_neg h]; rfl

theorem sliceVals_soft (xs : List V) (sl : Slice) : sliceVals (xs.map (V.soft P)) sl = (sliceVals xs sl).soft P (List.map (V.soft P)) := by
  unfold sliceVals
  simp only [List.length_map]
  split
  · exact sliceLoop_soft (P := P) true xs _ _ _ _ []
  · split
    · exact sliceLoop_soft (P := P) false xs _ _ _ _ []
    · rfl

theorem slicing_soft (xs : List V) (sl : Slice) : slicing (xs.map (V.soft P)) sl = (slicing xs sl).soft P (List.map (V.soft P)) := by
  unfold slicing
  simp only [List.length_map]
  split
  · split
    · simp [Res.soft]
    · rfl
  · exact sliceVals_soft xs sl

theorem valByKey_soft (env : Env) (src key : V) (n : Bool) :
    valByKey env (src.soft P) (key.soft P) n = (valByKey env src key n).map (V.soft P) := by
  cases src with
  | gint n => rcases soft_gint (P := P) n with ⟨_, e⟩ | ⟨_, e⟩ <;> rw [e] <;> rfl
  | obj kvs => simp [valByKey, lookup_soft]
  | arr xs =>
    simp only [soft_arr, valByKey, cvi_soft, List.length_map, goIndex_soft]
    split <;> split <;> rfl
  | _ => simp [valByKey]

/-- A slice that may be nil, replaced. -/
def GoSlice.soft (P : Int64 → Bool) (s : GoSlice) : GoSlice := s.map (List.map (V.soft P))

theorem elems_soft (s : GoSlice) : (s.soft P).elems = s.elems.map (V.soft P) := by
  cases s <;> simp [GoSlice.soft, GoSlice.elems]

theorem append_soft (s : GoSlice) (v : V) : (s.soft P).append (v.soft P) = (s.append v).soft P := by
  simp [GoSlice.append, elems_soft]; simp [GoSlice.soft]

theorem appendAll_soft (s : GoSlice) (vs : List V) : (s.soft P).appendAll (vs.map (V.soft P)) = (s.appendAll vs).soft P := by
  cases vs with
  | nil => rfl
  | cons v r => simp [GoSlice.appendAll, elems_soft]; simp [GoSlice.soft]

theorem isSliceV_soft (v : V) : (∃ s, v = .slice s ∧ v.soft P = .slice s) ∨ ((∀ s, v ≠ .slice s) ∧ ∀ s, v.soft P ≠ .slice s) := by
  cases v with
  | gint n => rcases soft_gint (P := P) n with ⟨_, e⟩ | ⟨_, e⟩ <;> simp [e]
  | _ => simp

theorem valsByKey_soft (env : Env) (vals : GoSlice) (src key : V) (n : Bool) :
    valsByKey env (vals.soft P) (src.soft P) (key.soft P) n = (valsByKey env vals src key n).soft P (GoSlice.soft P) := by
  rcases isSliceV_soft (P := P) key with ⟨sl, rfl, e⟩ | ⟨h1, h2⟩
  · rw [e]
    cases src with
    | gint n => rcases soft_gint (P := P) n with ⟨_, e⟩ | ⟨_, e⟩ <;> rw [e] <;> rfl
    | arr xs =>
      simp only [soft_arr, valsByKey]
      refine soft_bind (sliceVals_soft xs sl) ?_
      intro a _
      simp [Res.soft, appendAll_soft]
    | _ => simp [valsByKey, Res.soft, GoSlice.soft]
  · have key' : ∀ (k : V), (∀ s, k ≠ .slice s) → ∀ vals src, valsByKey env vals src k n = match src with
        | .arr xs =>
          if isInt k then
            match valByKey env (.arr xs) k n with
            | some v => .ok (vals.append v)
            | none => .ok vals
          else .ok vals
        | .obj kvs =>
          match valByKey env (.obj kvs) k false with
          | some v => .ok (vals.append v)
          | none => .ok vals
        | _ => .ok vals := by
      intro k hk vals src
      unfold valsByKey
      split
      · exact absurd rfl (hk _)
      · rfl
    rw [key' key h1, key' _ h2]
    cases src with
    | gint n => rcases soft_gint (P := P) n with ⟨_, e⟩ | ⟨_, e⟩ <;> rw [e] <;> rfl
    | arr xs =>
      have hv := valByKey_soft (P := P) env (.arr xs) key n
      rw [soft_arr] at hv ⊢
      simp only [isInt_soft, hv]
      split
      · cases valByKey env (.arr xs) key n with
        | none => rfl
        | some v => simp [Res.soft, append_soft]
      · rfl
    | obj kvs =>
      have hv := valByKey_soft (P := P) env (.obj kvs) key false
      rw [soft_obj] at hv ⊢
      simp only [hv]
      cases valByKey env (.obj kvs) key false with
      | none => rfl
      | some v => simp [Res.soft, append_soft]
    | _ => simp [Res.soft]

theorem unionByKeys_soft (env : Env) (src : V) (sels : List V) : ∀ vals : GoSlice,
    unionByKeys env (vals.soft P) (src.soft P) (sels.map (V.soft P)) = (unionByKeys env vals src sels).soft P (GoSlice.soft P) := by
  induction sels with
  | nil => intro vals; rfl
  | cons sel r ih =>
    intro vals
    simp only [List.map_cons, unionByKeys, isNothing_soft]
    split
    · exact ih vals
    · exact soft_bind (valsByKey_soft env vals src sel true) fun a _ => ih a

theorem children_soft (ord : Ord) (loc : List Nat) (v : V) : children ord loc (v.soft P) = (children ord loc v).map (V.soft P) := by
  cases v with
  | gint n => rcases soft_gint (P := P) n with ⟨_, e⟩ | ⟨_, e⟩ <;> rw [e] <;> rfl
  | obj kvs => simp [children, ← permute_map, Function.comp_def, softKV]
  | _ => simp [children]

theorem applySelection_soft {f f' : Nat → V → GoSlice → Res RErr GoSlice}
    (h : ∀ k v acc, f' k (v.soft P) (GoSlice.soft P acc) = (f k v acc).soft P (GoSlice.soft P)) (xs : List V) : ∀ k acc,
    applySelection f' k (GoSlice.soft P acc) (xs.map (V.soft P)) = (applySelection f k acc xs).soft P (GoSlice.soft P) := by
  induction xs with
  | nil => intro k acc; rfl
  | cons x r ih =>
    intro k acc
    simp only [List.map_cons, applySelection]
    exact soft_bind (h k x acc) fun a _ => ih (k + 1) a

theorem stepping_soft (ord : Ord) (xs : List V) : ∀ k, stepping ord k (xs.map (V.soft P)) = (stepping ord k xs).map (V.soft P) := by
  induction xs with
  | nil => intro k; rfl
  | cons x r ih => intro k; simp [stepping, children_soft, ih]

mutual
theorem walkdown_soft (ord : Ord) : ∀ (loc : List Nat) (v : V), walkdown ord loc (v.soft P) = (walkdown ord loc v).map (V.soft P)
  | loc, .arr xs => by simp [walkdown, walkElems_soft ord loc 0 xs]
  | loc, .obj kvs => by
    simp only [soft_obj, walkdown, List.length_map, List.map_cons, List.cons.injEq, true_and]
    rw [walkMembers_soft ord loc 0 kvs, permute_map, List.map_flatten]
  | loc, .gint n => by rcases soft_gint (P := P) n with ⟨_, e⟩ | ⟨_, e⟩ <;> simp [e, walkdown]
  | loc, .null | loc, .bool _ | loc, .int _ | loc, .float _ | loc, .str _ | loc, .num _ | loc, .name _ | loc, .re _ | loc, .slice _
  | loc, .err _ => by simp [walkdown]
theorem walkElems_soft (ord : Ord) : ∀ (loc : List Nat) (i : Nat) (xs : List V),
    walkElems ord loc i (xs.map (V.soft P)) = (walkElems ord loc i xs).map (V.soft P)
  | _, _, [] => by simp [walkElems]
  | loc, i, x :: xs => by
    simp only [List.map_cons, walkElems, isStructure_soft, List.map_append]
    rw [walkdown_soft ord (i :: loc) x, walkElems_soft ord loc (i + 1) xs]
    split <;> rfl
theorem walkMembers_soft (ord : Ord) : ∀ (loc : List Nat) (i : Nat) (kvs : List (Bytes × V)),
    walkMembers ord loc i (kvs.map (softKV P)) = (walkMembers ord loc i kvs).map (List.map (V.soft P))
  | _, _, [] => by simp [walkMembers]
  | loc, i, (k, x) :: kvs => by
    simp only [List.map_cons, softKV, walkMembers, isStructure_soft]
    rw [walkdown_soft ord (i :: loc) x, walkMembers_soft ord loc (i + 1) kvs]
    split <;> rfl
end

theorem walker_soft (ord : Ord) (xs : List V) : ∀ k, walker ord k (xs.map (V.soft P)) = (walker ord k xs).map (V.soft P) := by
  induction xs with
  | nil => intro k; rfl
  | cons x r ih =>
    intro k
    simp only [List.map_cons, walker, isStructure_soft, List.map_append, ih, walkdown_soft]
    split <;> rfl

/-! ### Operators -/

theorem arith_soft (env : Env) (a b : V) (f g) : arith env (a.soft P) (b.soft P) f g = (arith env a b f g).soft P := by
  unfold arith
  simp only [isNothing_soft, isArith_soft, isFloat_soft, cvf_soft, cvi_soft]
  split
  · simp
  · split
    · simp
    · split <;> simp

theorem divide_soft (env : Env) (a b : V) (f g) : divide env (a.soft P) (b.soft P) f g = (divide env a b f g).soft P := by
  unfold divide
  simp only [isNothing_soft, isArith_soft, isFloat_soft, cvf_soft, cvi_soft]
  repeat' split
  all_goals simp

theorem relation_soft (env : Env) (a b : V) (f g h) : relation env (a.soft P) (b.soft P) f g h = (relation env a b f g h).soft P := by
  unfold relation
  simp only [isNothing_soft, isSimple_soft, isString_soft, isFloat_soft, cvf_soft, cvi_soft, cvs_soft]
  repeat' split
  all_goals simp

theorem opExp_soft (env : Env) (a : V) : opExp env (a.soft P) = (opExp env a).soft P := by
  unfold opExp
  simp only [isNothing_soft, isString_soft, isInt_soft, cvi_soft]
  repeat' split
  all_goals simp

theorem opNeg_soft (env : Env) (a : V) : opNeg env (a.soft P) = (opNeg env a).soft P := by
  cases a with
  | gint n => rcases soft_gint (P := P) n with ⟨_, e⟩ | ⟨_, e⟩ <;> rw [e] <;> simp [opNeg, isNothing, cvi]
  | _ => simp [opNeg, isNothing, cvi]

theorem opDot_soft (env : Env) (a b : V) : opDot env (a.soft P) (b.soft P) = (opDot env a b).soft P (V.soft P) := by
  unfold opDot
  simp only [isNothing_soft]
  split
  · simp [Res.soft]
  · cases b with
    | gint n => rcases soft_gint (P := P) n with ⟨_, e⟩ | ⟨_, e⟩ <;> rw [e] <;> rfl
    | name key =>
      simp only [soft_name]
      split
      · cases a with
        | gint n => rcases soft_gint (P := P) n with ⟨_, e⟩ | ⟨_, e⟩ <;> rw [e] <;> simp [Res.soft]
        | _ => simp [Res.soft]
      · cases a with
        | gint n => rcases soft_gint (P := P) n with ⟨_, e⟩ | ⟨_, e⟩ <;> rw [e] <;> simp [Res.soft]
        | obj kvs =>
          have := valByKey_soft (P := P) env (.obj kvs) (.name key) false
          rw [soft_obj, soft_name] at this
          simp only [soft_obj, this, Res.soft]
          cases valByKey env (.obj kvs) (.name key) false <;> simp
        | _ => simp [Res.soft]
    | _ => simp [Res.soft]

theorem opIndex_soft (env : Env) (a b : V) : opIndex env (a.soft P) (b.soft P) = (opIndex env a b).soft P := by
  unfold opIndex
  simp only [isNothing_soft]
  split
  · simp
  · cases a with
    | gint n => rcases soft_gint (P := P) n with ⟨_, e⟩ | ⟨_, e⟩ <;> rw [e] <;> simp
    | arr xs =>
      simp only [soft_arr, cvi_soft, List.length_map, goIndex_soft]
      generalize (if cvi env b < 0 then cvi env b + Int64.ofNat xs.length else cvi env b) = i
      split
      · simp
      · cases goIndex xs i <;> simp
    | obj kvs =>
      have := valByKey_soft (P := P) env (.obj kvs) b true
      rw [soft_obj] at this
      simp only [soft_obj, this]
      cases valByKey env (.obj kvs) b true <;> simp
    | _ => simp

theorem opSlice_soft (a b : V) : opSlice (a.soft P) (b.soft P) = (opSlice a b).soft P (V.soft P) := by
  unfold opSlice
  simp only [isNothing_soft]
  split
  · simp [Res.soft]
  · rcases isSliceV_soft (P := P) b with ⟨sl, rfl, e⟩ | ⟨h1, h2⟩
    · rw [e]
      cases a with
      | gint n => rcases soft_gint (P := P) n with ⟨_, e⟩ | ⟨_, e⟩ <;> rw [e] <;> simp [Res.soft]
      | arr xs =>
        simp only [soft_arr]
        refine soft_bind (slicing_soft xs sl) ?_
        intro a _
        simp [Res.soft]
      | _ => simp [Res.soft]
    · split
      · next h _ => exact absurd h (h2 _)
      · split
        · next h _ => exact absurd rfl (h1 _)
        · simp [Res.soft]

theorem opMatch_soft (env : Env) (a b : V) : opMatch env (a.soft P) (b.soft P) = (opMatch env a b).soft P (V.soft P) := by
  unfold opMatch
  simp only [isNothing_soft]
  split
  · simp [Res.soft]
  · have hgo : ∀ re, (match a.soft P with | .str s => .ok (.bool (env.reMatch re s)) | _ => .err (.matchLeft (a.soft P))) =
        Res.soft P (V.soft P) (match a with | .str s => .ok (.bool (env.reMatch re s)) | _ => .err (.matchLeft a)) := by
      intro re
      cases a with
      | gint n => rcases soft_gint (P := P) n with ⟨_, e⟩ | ⟨_, e⟩ <;> simp [e, Res.soft, RErr.soft]
      | _ => simp [Res.soft, RErr.soft]
    cases b with
    | gint n => rcases soft_gint (P := P) n with ⟨_, e⟩ | ⟨_, e⟩ <;> simp [e, Res.soft, RErr.soft]
    | re p => simp only [soft_re]; exact hgo p
    | str s =>
      simp only [soft_str]
      split
      · exact hgo s
      · rfl
    | _ => simp [Res.soft, RErr.soft]

theorem opIn_soft (env : Env) (op : Op) (a b : V) : opIn env op (a.soft P) (b.soft P) = (opIn env op a b).soft P (V.soft P) := by
  unfold opIn
  simp only [isNothing_soft]
  split
  · simp [Res.soft]
  · cases b with
    | gint n => rcases soft_gint (P := P) n with ⟨_, e⟩ | ⟨_, e⟩ <;> simp [e, Res.soft, RErr.soft]
    | arr xs => simp [Res.soft, searchJSON_soft]
    | _ => simp [Res.soft, RErr.soft]

theorem binop_soft (env : Env) (op : Op) (a b : V) :
    binop env op (a.soft P) (b.soft P) = (binop env op a b).map (Res.soft P (V.soft P)) := by
  unfold binop
  split <;> simp only [Option.map_some, Option.map_none, opDot_soft, opIndex_soft, opSlice_soft, arith_soft, divide_soft, relation_soft,
    eqVal_soft, opMatch_soft, opIn_soft, Res.soft, soft_bool]
  · congr 2
    unfold opOr
    simp only [isNothing_soft, cvb_soft]
    repeat' split
    all_goals simp
  · congr 2
    unfold opAnd
    simp only [isNothing_soft, cvb_soft]
    split <;> rfl

theorem unop_soft (env : Env) (op : Op) (v : V) : unop env op (v.soft P) = (unop env op v).map (V.soft P) := by
  unfold unop
  split <;> simp [opExp_soft, opNeg_soft]

theorem applyOp_soft (env : Env) (ord : Ord) (op : Op) (vs : List V)
    (h : P Int64.minValue = true → ∀ args, op = .call → vs = .name (b! "abs") :: args → False) :
    applyOp env ord op (vs.map (V.soft P)) = (applyOp env ord op vs).soft P (V.soft P) := by
  by_cases ha : op = .array
  · subst ha; simp [applyOp, Res.soft]
  by_cases hc : op = .call
  · subst hc
    unfold applyOp
    cases vs with
    | nil => rfl
    | cons v r =>
      cases v with
      | gint n => rcases soft_gint (P := P) n with ⟨_, e⟩ | ⟨_, e⟩ <;> simp [e, Res.soft]
      | name id =>
        simp only [List.map_cons, soft_name]
        exact call_soft env ord id (fun hP e => h hP r rfl (by rw [e])) r
      | _ => simp [Res.soft]
  · have key : ∀ vs, applyOp env ord op vs = match vs with
        | [v] => match unop env op v with
          | some r => .ok r
          | none => .stuck
        | [a, b] => match binop env op a b with
          | some r => r
          | none => .stuck
        | _ => .stuck := by
      intro vs
      unfold applyOp
      split
      · exact absurd rfl ha
      · exact absurd rfl hc
      · rfl
    rw [key, key]
    match vs with
    | [] => rfl
    | [v] => simp only [List.map_cons, List.map_nil, unop_soft]; cases unop env op v <;> rfl
    | [a, b] => simp only [List.map_cons, List.map_nil, binop_soft]; cases binop env op a b <;> rfl
    | _ :: _ :: _ :: _ => rfl

/-! ### Evaluation -/

/-- A value with a count, replaced. -/
def soft1 (P : Int64 → Bool) (r : V × Nat) : V × Nat := (r.1.soft P, r.2)
/-- Values with a count, replaced. -/
def softN (P : Int64 → Bool) (r : List V × Nat) : List V × Nat := (r.1.map (V.soft P), r.2)
/-- A set of results with a count, replaced. -/
def softS (P : Int64 → Bool) (r : GoSlice × Nat) : GoSlice × Nat := (GoSlice.soft P r.1, r.2)

mutual
theorem evalExpr_soft (env : Env) (oracle : Oracle) (root dot : V) : ∀ (e : Expr), e.WF → (P Int64.minValue = true → e.noAbs = true) → ∀ t,
    evalExpr env oracle (root.soft P) (dot.soft P) e t = (evalExpr env oracle root dot e t).soft P (soft1 P)
  | .int _, _, _, t | .float _, _, _, t | .str _, _, _, t | .bool _, _, _, t | .null, _, _, t
  | .name _, _, _, t | .re _, _, _, t | .current, _, _, t | .root, _, _, t => by simp [evalExpr, Res.soft, soft1]
  | .inner op kids, hw, hk, t => by
    unfold evalExpr
    have hwk : Exprs.WF kids := by
      cases hw with
      | unary _ e _ h => exact .cons _ _ h .nil
      | binary _ a b _ h1 h2 => exact .cons _ _ h1 (.cons _ _ h2 .nil)
      | dot a s h => exact .cons _ _ h (.cons _ _ (.name _) .nil)
      | array _ h => exact h
      | call _ _ h => exact .cons _ _ (.name _) h
    simp only [Expr.noAbs, Bool.and_eq_true] at hk
    refine soft_bind (evalKids_soft env oracle root dot kids hwk (fun h => (hk h).1) t) ?_
    rintro ⟨vs, t1⟩ h1
    refine soft_bind (applyOp_soft env (oracle t1) op vs ?_) ?_
    · rintro hP args rfl rfl
      cases hw with
      | unary _ _ h => cases h
      | binary _ _ _ h => cases h
      | call f es h =>
        have hf : f ≠ b! "abs" := by simpa using (hk hP).2
        unfold evalKids at h1
        simp only [evalExpr, Res.bind_ok] at h1
        obtain ⟨⟨args, _⟩, _, h1⟩ := bind_eq_ok h1
        cases h1
        exact hf rfl
    · intro v _
      rfl
theorem evalKids_soft (env : Env) (oracle : Oracle) (root dot : V) : ∀ (es : List Expr), Exprs.WF es →
    (P Int64.minValue = true → Exprs.noAbs es = true) → ∀ t,
    evalKids env oracle (root.soft P) (dot.soft P) es t = (evalKids env oracle root dot es t).soft P (softN P)
  | [], _, _, t => by simp [evalKids, Res.soft, softN]
  | e :: r, hw, hk, t => by
    simp only [Exprs.noAbs, Bool.and_eq_true] at hk
    cases hw with
    | cons _ _ h1 h2 =>
    unfold evalKids
    refine soft_bind (evalExpr_soft env oracle root dot e h1 (fun h => (hk h).1) t) ?_
    rintro ⟨v, t1⟩ _
    refine soft_bind (evalKids_soft env oracle root dot r h2 (fun h => (hk h).2) t1) ?_
    rintro ⟨vs, t2⟩ _
    rfl
end

theorem evalVals_soft (env : Env) (oracle : Oracle) (root dot : V) : ∀ (as : List Val), (∀ v ∈ as, v.WF) →
    (P Int64.minValue = true → ∀ e, Val.expr e ∈ as → e.noAbs = true) → ∀ t,
    evalVals env oracle (root.soft P) (dot.soft P) as t = (evalVals env oracle root dot as t).soft P (softN P)
  | [], _, _, t => by simp [evalVals, Res.soft, softN]
  | a :: r, hw, hk, t => by
    unfold evalVals
    have ha : evalVal env oracle (root.soft P) (dot.soft P) a t = (evalVal env oracle root dot a t).soft P (soft1 P) := by
      cases a with
      | expr e => exact evalExpr_soft env oracle root dot e (hw (.expr e) (by simp)) (fun h => hk h e (by simp)) t
      | _ => simp [evalVal, Res.soft, soft1]
    refine soft_bind ha ?_
    rintro ⟨v, t1⟩ _
    refine soft_bind (evalVals_soft env oracle root dot r (fun v hv => hw v (by simp [hv])) (fun h e he => hk h e (by simp [he])) t1) ?_
    rintro ⟨vs, t2⟩ _
    rfl

theorem visit_soft (env : Env) (ord : Ord) (op : Op) (dot : V) (vs : List V) (out : GoSlice) :
    visit env ord op (dot.soft P) (vs.map (V.soft P)) (GoSlice.soft P out) = (visit env ord op dot vs out).soft P (GoSlice.soft P) := by
  have hf : ∀ v : V, (Res.ok (if !isNothing (v.soft P) && cvb env (v.soft P) then GoSlice.append (GoSlice.soft P out) (dot.soft P)
      else GoSlice.soft P out) : Res RErr GoSlice) =
      Res.soft P (GoSlice.soft P) (.ok (if !isNothing v && cvb env v then out.append dot else out)) := by
    intro v
    simp only [isNothing_soft, cvb_soft, Res.soft, append_soft]
    split <;> rfl
  have hm : ∀ (sel : V) (b : Bool), (if isNothing (sel.soft P) then (Res.ok (GoSlice.soft P out) : Res RErr GoSlice)
      else valsByKey env (GoSlice.soft P out) (dot.soft P) (sel.soft P) b) =
      Res.soft P (GoSlice.soft P) (if isNothing sel then .ok out else valsByKey env out dot sel b) := by
    intro sel b
    rw [isNothing_soft]
    split
    · rfl
    · exact valsByKey_soft env out dot sel b
  unfold visit
  cases op with
  | nestUnion => exact unionByKeys_soft env dot vs out
  | filter | nestFilter =>
    match vs with
    | [] => rfl
    | [v] => exact hf v
    | _ :: _ :: _ => rfl
  | nestMember =>
    match vs with
    | [] => rfl
    | [v] => exact hm v false
    | _ :: _ :: _ => rfl
  | nestSelect =>
    match vs with
    | [] => rfl
    | [v] => exact hm v true
    | _ :: _ :: _ => rfl
  | nestWild =>
    match vs with
    | [] => simp [Res.soft, children_soft, appendAll_soft]
    | _ :: _ => rfl
  | _ => rfl

theorem visits_soft (env : Env) (oracle : Oracle) (root : V) (s : Step) (hw : ∀ v ∈ s.args, v.WF)
    (hk : P Int64.minValue = true → ∀ e, Val.expr e ∈ s.args → e.noAbs = true) (xs : List V) : ∀ out t,
    visits env oracle (root.soft P) s (xs.map (V.soft P)) (GoSlice.soft P out) t = (visits env oracle root s xs out t).soft P (softS P) := by
  induction xs with
  | nil => intro out t; simp [visits, Res.soft, softS]
  | cons x r ih =>
    intro out t
    simp only [List.map_cons, visits]
    refine soft_bind (evalVals_soft env oracle root x s.args hw hk t) ?_
    rintro ⟨vs, t1⟩ _
    refine soft_bind (visit_soft env (oracle t1) s.op x vs out) ?_
    intro out' _
    exact ih out' _

theorem loop_soft (env : Env) (oracle : Oracle) (root : V) (s : Step) (hw : ∀ v ∈ s.args, v.WF)
    (hk : P Int64.minValue = true → ∀ e, Val.expr e ∈ s.args → e.noAbs = true) (xs : List V) (out : GoSlice) (t : Nat) :
    loop env oracle (root.soft P) s (xs.map (V.soft P)) (GoSlice.soft P out) t = (loop env oracle root s xs out t).soft P (softS P) := by
  unfold loop
  rw [elems_soft]
  simp only [List.isEmpty_map]
  split
  · rfl
  · have : visited (xs.map (V.soft P)) = (visited xs).map (V.soft P) := by
      unfold visited
      simp only [List.isEmpty_map]
      split <;> simp
    rw [this]
    exact visits_soft env oracle root s hw hk (visited xs) (some []) t

theorem evalStep_soft (env : Env) (oracle : Oracle) (root : V) (s : Step) (hw : ∀ v ∈ s.args, v.WF)
    (hk : P Int64.minValue = true → ∀ e, Val.expr e ∈ s.args → e.noAbs = true) (out : GoSlice) (t : Nat) :
    evalStep env oracle (root.soft P) s (GoSlice.soft P out) t = (evalStep env oracle root s out t).soft P (softS P) := by
  have hl := fun xs => loop_soft (P := P) env oracle root s hw hk xs out (t + 1)
  have hv := evalVals_soft (P := P) env oracle root .null s.args hw hk t
  rw [soft_null] at hv
  have hsel : ∀ (b : Bool) (vs : List V) (t : Nat), (match vs.map (V.soft P) with
      | [sel] =>
        if isNothing sel then (.ok (some [], t) : Res RErr (GoSlice × Nat))
        else do
          let out ← applySelection (fun _ el acc => valsByKey env acc el sel b) 0 (some []) (GoSlice.soft P out).elems
          .ok (out, t)
      | _ => .stuck) = Res.soft P (softS P) (match vs with
      | [sel] =>
        if isNothing sel then .ok (some [], t)
        else do
          let out ← applySelection (fun _ el acc => valsByKey env acc el sel b) 0 (some []) out.elems
          .ok (out, t)
      | _ => .stuck) := by
    intro b vs t
    match vs with
    | [] => rfl
    | [sel] =>
      simp only [List.map_cons, List.map_nil, isNothing_soft]
      split
      · rfl
      · rw [elems_soft]
        refine soft_bind (applySelection_soft (P := P) (f := fun _ el acc => valsByKey env acc el sel b)
          (fun k v acc => valsByKey_soft env acc v sel b) out.elems 0 (some [])) ?_
        intro a _
        rfl
    | _ :: _ :: _ => rfl
  unfold evalStep
  split
  · rw [elems_soft]
    refine soft_bind (applySelection_soft (P := P) (f := fun k el acc => .ok (GoSlice.appendAll acc (children (oracle t) [k] el)))
      (fun k v acc => by simp [Res.soft, children_soft, appendAll_soft]) out.elems 0 (some [])) ?_
    intro a _
    rfl
  · refine soft_bind hv ?_
    rintro ⟨vs, t1⟩ _
    exact hsel _ vs t1
  · refine soft_bind hv ?_
    rintro ⟨vs, t1⟩ _
    exact hsel _ vs t1
  · refine soft_bind hv ?_
    rintro ⟨vs, t1⟩ _
    rw [elems_soft]
    refine soft_bind (applySelection_soft (P := P) (f := fun _ el acc => unionByKeys env acc el vs)
      (fun k v acc => unionByKeys_soft env v vs acc) out.elems 0 (some [])) ?_
    intro a _
    rfl
  · rw [elems_soft, stepping_soft]; exact hl _
  all_goals first | (rw [elems_soft, walker_soft]; exact hl _) | rfl

theorem evalSteps_soft (env : Env) (oracle : Oracle) (root : V) : ∀ (p : Path), p.WF →
    (P Int64.minValue = true → p.NoAbs) → ∀ (out : GoSlice) (t : Nat),
    evalSteps env oracle (root.soft P) p (GoSlice.soft P out) t = (evalSteps env oracle root p out t).soft P (softS P)
  | [], _, _, out, t => by simp [evalSteps, Res.soft, softS]
  | s :: r, hw, hk, out, t => by
    unfold evalSteps
    refine soft_bind (evalStep_soft env oracle root s (hw s (by simp)).1 (fun h => hk h s (by simp)) out t) ?_
    rintro ⟨out', t1⟩ _
    exact evalSteps_soft env oracle root r (fun s hs => hw s (by simp [hs])) (fun h s hs => hk h s (by simp [hs])) out' t1

theorem evalPath_soft (env : Env) (oracle : Oracle) (root : V) (p : Path) (hw : p.WF) (hk : P Int64.minValue = true → p.NoAbs) :
    evalPath env oracle (root.soft P) p = (evalPath env oracle root p).soft P (GoSlice.soft P) := by
  unfold evalPath
  refine soft_bind (evalSteps_soft env oracle root p hw hk (some [root]) 0) ?_
  rintro ⟨out, t⟩ _
  simp only [softS, elems_soft, Res.soft]
  rfl

end

/-! ### All integers -/

mutual
theorem soft_all : ∀ v : V, v.soft (fun _ => true) = v.asInt64
  | .arr xs => by simp [V.asInt64, softs_all xs]
  | .obj kvs => by simp [V.asInt64, softm_all kvs]
  | .gint n => by simp [V.soft, V.asInt64]
  | .null | .bool _ | .int _ | .float _ | .str _ | .num _ | .name _ | .re _ | .slice _ | .err _ => by simp [V.asInt64]
theorem softs_all : ∀ xs : List V, xs.map (V.soft (fun _ => true)) = Vs.asInt64 xs
  | [] => rfl
  | x :: xs => by simp [Vs.asInt64, soft_all x, softs_all xs]
theorem softm_all : ∀ kvs : List (Bytes × V), kvs.map (softKV (fun _ => true)) = Members.asInt64 kvs
  | [] => rfl
  | (k, x) :: kvs => by simp [Members.asInt64, softKV, soft_all x, softm_all kvs]
end

mutual
theorem soft_least : ∀ v : V, v.noLeastInt = true → v.soft (fun n => n != Int64.minValue) = v.asInt64
  | .arr xs, h => by simp [V.asInt64, softs_least xs (by simpa [V.noLeastInt] using h)]
  | .obj kvs, h => by simp [V.asInt64, softm_least kvs (by simpa [V.noLeastInt] using h)]
  | .gint n, h => by simpa [V.soft, V.asInt64, V.noLeastInt] using h
  | .null, _ | .bool _, _ | .int _, _ | .float _, _ | .str _, _ | .num _, _ | .name _, _ | .re _, _ | .slice _, _ | .err _, _ => by simp [V.asInt64]
theorem softs_least : ∀ xs : List V, Vs.noLeastInt xs = true → xs.map (V.soft (fun n => n != Int64.minValue)) = Vs.asInt64 xs
  | [], _ => rfl
  | x :: xs, h => by
    simp only [Vs.noLeastInt, Bool.and_eq_true] at h
    simp [Vs.asInt64, soft_least x h.1, softs_least xs h.2]
theorem softm_least : ∀ kvs : List (Bytes × V), Members.noLeastInt kvs = true →
    kvs.map (softKV (fun n => n != Int64.minValue)) = Members.asInt64 kvs
  | [], _ => rfl
  | (k, x) :: kvs, h => by
    simp only [Members.noLeastInt, Bool.and_eq_true] at h
    simp [Members.asInt64, softKV, soft_least x h.1, softm_least kvs h.2]
end

section
variable {P : Int64 → Bool}

mutual
theorem asInt64_soft : ∀ v : V, (v.soft P).asInt64 = v.asInt64
  | .arr xs => by simp [V.asInt64, asInt64_softs xs]
  | .obj kvs => by simp [V.asInt64, asInt64_softm kvs]
  | .gint n => by rcases soft_gint (P := P) n with ⟨_, e⟩ | ⟨_, e⟩ <;> rw [e]; simp [V.asInt64]
  | .null | .bool _ | .int _ | .float _ | .str _ | .num _ | .name _ | .re _ | .slice _ | .err _ => by simp
theorem asInt64_softs : ∀ xs : List V, Vs.asInt64 (xs.map (V.soft P)) = Vs.asInt64 xs
  | [] => rfl
  | x :: xs => by simp [Vs.asInt64, asInt64_soft x, asInt64_softs xs]
theorem asInt64_softm : ∀ kvs : List (Bytes × V), Members.asInt64 (kvs.map (softKV P)) = Members.asInt64 kvs
  | [] => rfl
  | (k, x) :: kvs => by simp [Members.asInt64, softKV, asInt64_soft x, asInt64_softm kvs]
end

theorem RErr.asInt64_soft (e : RErr) : (e.soft P).asInt64 = e.asInt64 := by
  cases e <;> simp [RErr.soft, RErr.asInt64, JP.asInt64_soft]

theorem evalPath_alike {env : Env} {oracle : Oracle} {d d' : V} {p : Path} (hw : p.WF) (hd : d.asInt64 = d'.asInt64)
    (h : p.NoAbs ∨ (d.noLeastInt = true ∧ d'.noLeastInt = true)) : ∃ P : Int64 → Bool,
    (evalPath env oracle d p).soft P (GoSlice.soft P) = (evalPath env oracle d' p).soft P (GoSlice.soft P) := by
  rcases h with h | ⟨h, h'⟩
  · refine ⟨fun _ => true, ?_⟩
    rw [← evalPath_soft env oracle d p hw fun _ => h, ← evalPath_soft env oracle d' p hw fun _ => h, soft_all, soft_all, hd]
  · refine ⟨fun n => n != Int64.minValue, ?_⟩
    rw [← evalPath_soft env oracle d p hw (by simp), ← evalPath_soft env oracle d' p hw (by simp), soft_least d h, soft_least d' h', hd]

theorem ok_of_soft {x : Res RErr GoSlice} {vs : List V} (h : Res.soft P (GoSlice.soft P) (.ok (some vs)) = x.soft P (GoSlice.soft P)) :
    ∃ vs', x = .ok (some vs') ∧ Vs.asInt64 vs = Vs.asInt64 vs' := by
  cases x with
  | ok a =>
    cases a with
    | none => simp [Res.soft, GoSlice.soft] at h
    | some vs' =>
      simp only [Res.soft, GoSlice.soft, Option.map_some, Res.ok.injEq, Option.some.injEq] at h
      refine ⟨vs', rfl, ?_⟩
      rw [← asInt64_softs (P := P) vs, h, asInt64_softs]
  | _ => simp [Res.soft] at h

theorem err_of_soft {x : Res RErr GoSlice} {e : RErr} (h : Res.soft P (GoSlice.soft P) (.err e) = x.soft P (GoSlice.soft P)) :
    ∃ e', x = .err e' ∧ e.asInt64 = e'.asInt64 := by
  cases x with
  | err e' =>
    simp only [Res.soft, Res.err.injEq] at h
    exact ⟨e', rfl, by rw [← RErr.asInt64_soft (P := P) e, h, RErr.asInt64_soft]⟩
  | _ => simp [Res.soft] at h

end
end JP
