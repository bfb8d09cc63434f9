import Verif.Proof.RunHeight
import Verif.Proof.EqTime
/-!
Exactly how deep the comparison of a value with itself goes.
-/
namespace JP
open Spec

theorem allOf_overflow : ∀ (l : List (Res RErr Bool)), (∀ x ∈ l, x = .ok true ∨ x = .panic "stack overflow") → .panic "stack overflow" ∈ l →
    allOf l = .panic "stack overflow"
  | [], _, h => by cases h
  | x :: r, h, hm => by
    rcases h x (by simp) with rfl | rfl
    · exact allOf_overflow r (fun y hy => h y (by simp [hy])) (by simpa using hm)
    · rfl

mutual
theorem dEqVal_self (env : Env) {ord : Ord} (ho : ord.Valid) : ∀ (a : V), KeysDistinct a → eqVal env a a = true → ∀ (loc : List Nat) (d : Nat),
    d ≤ height a → dEqVal env ord loc a a d = .panic "stack overflow"
  | a, _, _, _, 0, _ => by rw [dEqVal.eq_def]; rfl
  | .arr xs, hw, he, loc, d + 1, hd => by
    rw [eqVal.eq_def, if_neg (by simp)] at he
    rw [dEqVal.eq_def]
    show (if (xs.length == xs.length) = true then dEqElems env ord loc 0 xs xs d else .ok false) = _
    dsimp only at he
    rw [if_pos (by simp)]
    simp only [height] at hd
    exact dEqElems_self env ho xs hw.elems (by simpa using he) loc 0 d hd
  | .obj kvs, hw, he, loc, d + 1, hd => by
    have hw := hw.members
    rw [eqVal.eq_def, if_neg (by simp)] at he
    rw [dEqVal.eq_def]
    show (if (kvs.length == kvs.length) = true then allOf (permute (ord loc kvs.length) (dEqMembers env ord loc 0 kvs kvs d)) else .ok false) = _
    dsimp only at he
    rw [if_pos (by simp)]
    simp only [height] at hd
    have he : eqMembers env kvs kvs = true := by simpa using he
    obtain ⟨h1, h2, h3⟩ := dEqMembers_self env ho kvs kvs hw.2 (fun k v h => lookup_of_mem hw.1 h) he loc 0 d
    have hp := permute_perm (p := ord loc kvs.length) (xs := dEqMembers env ord loc 0 kvs kvs d) (by rw [h3]; exact ho loc kvs.length)
    exact allOf_overflow _ (fun x hx => h1 x (hp.mem_iff.1 hx)) (hp.mem_iff.2 (h2 hd))
  | .null, _, _, loc, d + 1, hd => absurd hd (by simp [height])
  | .bool _, _, _, loc, d + 1, hd => absurd hd (by simp [height])
  | .gint _, _, _, loc, d + 1, hd => absurd hd (by simp [height])
  | .int _, _, _, loc, d + 1, hd => absurd hd (by simp [height])
  | .float _, _, _, loc, d + 1, hd => absurd hd (by simp [height])
  | .str _, _, _, loc, d + 1, hd => absurd hd (by simp [height])
  | .num _, _, _, loc, d + 1, hd => absurd hd (by simp [height])
  | .name _, _, _, loc, d + 1, hd => absurd hd (by simp [height])
  | .re _, _, _, loc, d + 1, hd => absurd hd (by simp [height])
  | .slice _, _, _, loc, d + 1, hd => absurd hd (by simp [height])
  | .err _, _, _, loc, d + 1, hd => absurd hd (by simp [height])
theorem dEqElems_self (env : Env) {ord : Ord} (ho : ord.Valid) : ∀ (xs : List V), (∀ x ∈ xs, KeysDistinct x) → eqElems env xs xs = true →
    ∀ (loc : List Nat) (i d : Nat), d + 1 ≤ heights xs → dEqElems env ord loc i xs xs d = .panic "stack overflow"
  | [], _, _, loc, i, d, hd => absurd hd (by simp [heights])
  | x :: xs, hw, he, loc, i, d, hd => by
    have hw := List.forall_mem_cons.1 hw
    rw [eqElems, Bool.and_eq_true] at he
    simp only [heights] at hd
    rw [dEqElems]
    by_cases hx : d ≤ height x
    · rw [dEqVal_self env ho x hw.1 he.1 (i :: loc) d hx]; rfl
    · rw [dEqVal_enough env ho x (i :: loc) x d (by omega), he.1]
      exact dEqElems_self env ho xs hw.2 he.2 loc (i + 1) d (by omega)
theorem dEqMembers_self (env : Env) {ord : Ord} (ho : ord.Valid) : ∀ (r kvs : List (Bytes × V)), (∀ kv ∈ r, KeysDistinct kv.2) →
    (∀ k v, (k, v) ∈ r → lookup kvs k = some v) → eqMembers env r kvs = true → ∀ (loc : List Nat) (i d : Nat),
    (∀ x ∈ dEqMembers env ord loc i r kvs d, x = .ok true ∨ x = .panic "stack overflow") ∧
    (d + 1 ≤ heightm r → .panic "stack overflow" ∈ dEqMembers env ord loc i r kvs d) ∧ (dEqMembers env ord loc i r kvs d).length = r.length
  | [], kvs, _, _, _, loc, i, d => by rw [dEqMembers]; exact ⟨by simp, fun h => absurd h (by simp [heightm]), rfl⟩
  | (k, v) :: r, kvs, hw, hk, he, loc, i, d => by
    have hw := List.forall_mem_cons.1 hw
    rw [eqMembers, Bool.and_eq_true, hk k v (by simp)] at he
    obtain ⟨h1, h2, h3⟩ := dEqMembers_self env ho r kvs hw.2 (fun k v h => hk k v (by simp [h])) he.2 loc (i + 1) d
    rw [dEqMembers, hk k v (by simp)]
    simp only [Option.getD_some, heightm, List.length_cons, h3, List.mem_cons]
    by_cases hx : d ≤ height v
    · rw [dEqVal_self env ho v hw.1 he.1 (i :: loc) d hx]
      refine ⟨?_, fun _ => .inl rfl, trivial⟩
      rintro x (rfl | hx)
      · exact .inr rfl
      · exact h1 x hx
    · rw [dEqVal_enough env ho v (i :: loc) v d (by omega), show eqVal env v v = true from he.1]
      refine ⟨?_, fun h => .inr (h2 (by omega)), trivial⟩
      rintro x (rfl | hx)
      · exact .inl rfl
      · exact h1 x hx
end

end JP
