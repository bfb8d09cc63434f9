import Verif.Spec.Shuffle
import Verif.Proof.RfcText
import Verif.Proof.RfcUnique
/-! Documents with the elements of arrays in another order. -/
namespace JP
open Spec Rfc

theorem all2_same : ∀ (l : List V), All2 Shuffled l l
  | [] => .nil
  | v :: r => .cons (.same v) (all2_same r)

theorem Spec.SameBag.same (l : List V) : SameBag l l := ⟨l, all2_same l, .refl _⟩

theorem Spec.SameBag.append {a b a' b' : List V} (h : SameBag a a') (h' : SameBag b b') : SameBag (a ++ b) (a' ++ b') := by
  obtain ⟨m, h1, h2⟩ := h
  obtain ⟨n, h3, h4⟩ := h'
  have app : ∀ {a m : List V}, All2 Shuffled a m → All2 Shuffled (a ++ b) (m ++ n) := by
    intro a m h
    induction h with
    | nil => exact h3
    | cons h _ ih => exact .cons h ih
  exact ⟨m ++ n, app h1, h2.append h4⟩

theorem Spec.SameBag.trans_perm {a b c : List V} (h : SameBag a b) (hp : b.Perm c) : SameBag a c := by
  obtain ⟨m, h1, h2⟩ := h
  exact ⟨m, h1, h2.trans hp⟩

theorem Spec.SameBag.perm_trans {a b c : List V} (hp : a.Perm b) (h : SameBag b c) : SameBag a c := by
  obtain ⟨m, h1, h2⟩ := h
  obtain ⟨k, h3, h4⟩ := (all2_swap h1).perm_right hp.symm
  exact ⟨k, all2_swap h4, h3.symm.trans h2⟩

theorem Spec.SameBag.cons {a b : V} {l l' : List V} (h : Shuffled a b) (h' : SameBag l l') : SameBag (a :: l) (b :: l') := by
  obtain ⟨m, h1, h2⟩ := h'
  exact ⟨b :: m, .cons h h1, h2.cons b⟩

/-- Results for the values of a bag. -/
theorem bag_flatten {P : V → List V → Prop} {W : V → Prop} (hP : ∀ v v' l l', Shuffled v v' → W v → W v' → P v l → P v' l' → SameBag l l') :
    ∀ {vs vs' : List V}, SameBag vs vs' → (∀ v ∈ vs, W v) → (∀ v ∈ vs', W v) → ∀ {ls ls' : List (List V)}, All2 P vs ls → All2 P vs' ls' →
      SameBag ls.flatten ls'.flatten := by
  intro vs vs' hb hw hw' ls ls' h h'
  obtain ⟨m, h1, h2⟩ := hb
  obtain ⟨ks, h3, h4⟩ := (all2_swap h').perm_right h2.symm
  have h5 := all2_swap h4
  have hwm : ∀ v ∈ m, W v := fun v hv => hw' v (h2.mem_iff.1 hv)
  refine SameBag.trans_perm (b := ks.flatten) ?_ h3.symm.flatten
  clear h2 h3 h4 h' hw'
  induction h1 generalizing ls ks with
  | nil => cases h; cases h5; exact .same _
  | cons hs _ ih =>
    cases h with
    | cons p1 r1 =>
      cases h5 with
      | cons p2 r2 =>
        rw [List.flatten_cons, List.flatten_cons]
        exact (hP _ _ _ _ hs (hw _ (by simp)) (hwm _ (by simp)) p1 p2).append
          (ih (fun v hv => hw v (by simp [hv])) r1 _ r2 (fun v hv => hwm v (by simp [hv])))

/-! ### Selectors -/

theorem all2_fst {ms ns : List (Bytes × V)} : ms.map Prod.fst = ns.map Prod.fst → All2 Shuffled (ms.map Prod.snd) (ns.map Prod.snd) →
    ∀ {k x}, (k, x) ∈ ms → ∃ y, (k, y) ∈ ns ∧ Shuffled x y := by
  induction ms generalizing ns with
  | nil => intro _ _ k x h; cases h
  | cons a r ih =>
    intro h1 h2 k x hx
    cases ns with
    | nil => simp at h1
    | cons b s =>
      simp only [List.map_cons, List.cons.injEq] at h1 h2
      cases h2 with
      | cons h2 h3 =>
        rcases List.mem_cons.1 hx with rfl | hx
        · exact ⟨b.2, by have : k = b.1 := h1.1; rw [this]; simp, h2⟩
        · obtain ⟨y, h4, h5⟩ := ih h1.2 h3 hx
          exact ⟨y, by simp [h4], h5⟩

theorem shuffled_kind {v v' : V} (h : Shuffled v v') : isStructure v = isStructure v' := by cases h <;> rfl

theorem selects_shuffled {s : Selector} (hs : (∃ n, s = .name n) ∨ s = .wild) {v v' : V} (h : Shuffled v v') (hw : v.WF) (hw' : v'.WF)
    {l l' : List V} (h1 : Selects s v l) (h2 : Selects s v' l') : SameBag l l' := by
  cases h with
  | same => exact .trans_perm (.same l) (selects_perm hw h1 h2)
  | arr ha hp =>
    rcases hs with ⟨n, rfl⟩ | rfl
    · cases h1 with
      | noObject => cases h2 with | noObject => exact .same _
    · cases h1 with
      | wild c1 => cases h2 with
        | wild c2 =>
          cases c1 with
          | arr => cases c2 with
            | arr => exact ⟨_, ha, hp⟩
            | other _ h => cases h
          | other _ h => cases h
  | @obj ms ns hk ha =>
    rcases hs with ⟨n, rfl⟩ | rfl
    · have hn' : (ns.map Prod.fst).Nodup := by unfold V.WF at hw'; exact hw'.2.1
      have mem : ∀ {k x}, (k, x) ∈ ms → k ∈ ns.map Prod.fst := fun h => hk ▸ List.mem_map_of_mem (f := Prod.fst) h
      cases h1 with
      | member hx =>
        obtain ⟨y, hy, hxy⟩ := all2_fst hk ha hx
        cases h2 with
        | member hy' => rw [key_unique hn' hy' hy]; exact ⟨[y], .cons hxy .nil, .refl _⟩
        | noMember h => exact absurd hy (h y)
        | noObject h => exact absurd rfl (h _)
      | noMember h =>
        cases h2 with
        | @member _ _ y hy =>
          have : n ∈ ms.map Prod.fst := by rw [hk]; exact List.mem_map_of_mem (f := Prod.fst) hy
          obtain ⟨⟨_, x⟩, hx, rfl⟩ := List.mem_map.1 this
          exact absurd hx (h x)
        | noMember h => exact .same _
        | noObject h => exact .same _
      | noObject h => exact absurd rfl (h _)
    · cases h1 with
      | wild c1 => cases h2 with
        | wild c2 =>
          cases c1 with
          | obj _ _ p1 => cases c2 with
            | obj _ _ p2 => exact .perm_trans p1 (.trans_perm ⟨_, ha, .refl _⟩ p2.symm)
            | other _ h => cases h
          | other _ h => cases h

theorem bracketed_shuffled {sels : List Selector} (hs : ∀ s ∈ sels, (∃ n, s = .name n) ∨ s = .wild) {v v' : V} (h : Shuffled v v') (hw : v.WF) (hw' : v'.WF)
    {l l' : List V} (h1 : Bracketed sels v l) (h2 : Bracketed sels v' l') : SameBag l l' := by
  obtain ⟨ls, h1, rfl⟩ := h1
  obtain ⟨ls', h2, rfl⟩ := h2
  induction h1 generalizing ls' with
  | nil => cases h2; exact .same _
  | cons p1 _ ih =>
    cases h2 with
    | cons p2 r2 =>
      rw [List.flatten_cons, List.flatten_cons]
      exact (selects_shuffled (hs _ (by simp)) h hw hw' p1 p2).append (ih (fun s h => hs s (by simp [h])) _ r2)

theorem selects_exists {s : Selector} (hs : (∃ n, s = .name n) ∨ s = .wild) (v : V) : ∃ l, Selects s v l := by
  rcases hs with ⟨n, rfl⟩ | rfl
  · by_cases ho : ∃ kvs, v = .obj kvs
    · obtain ⟨kvs, rfl⟩ := ho
      by_cases hm : ∃ x, (n, x) ∈ kvs
      · obtain ⟨x, hx⟩ := hm
        exact ⟨_, .member hx⟩
      · exact ⟨_, .noMember fun x hx => hm ⟨x, hx⟩⟩
    · exact ⟨_, .noObject fun kvs h => ho ⟨kvs, h⟩⟩
  · cases v
    case arr xs => exact ⟨_, .wild (.arr xs)⟩
    case obj kvs => exact ⟨_, .wild (.obj kvs _ (.refl _))⟩
    all_goals exact ⟨_, .wild (.other _ rfl)⟩

theorem bracketed_exists {sels : List Selector} (hs : ∀ s ∈ sels, (∃ n, s = .name n) ∨ s = .wild) (v : V) : ∃ l, Bracketed sels v l := by
  induction sels with
  | nil => exact ⟨[], [], .nil, rfl⟩
  | cons s r ih =>
    obtain ⟨_, ls, h, rfl⟩ := ih fun s h => hs s (by simp [h])
    obtain ⟨l, hl⟩ := selects_exists (hs s (by simp)) v
    exact ⟨_, l :: ls, .cons hl h, rfl⟩

theorem brackets_exist {sels : List Selector} (hs : ∀ s ∈ sels, (∃ n, s = .name n) ∨ s = .wild) : ∀ vs : List V, ∃ ls, All2 (Bracketed sels) vs ls
  | [] => ⟨[], .nil⟩
  | v :: r => by
    obtain ⟨ls, h⟩ := brackets_exist hs r
    obtain ⟨l, hl⟩ := bracketed_exists hs v
    exact ⟨l :: ls, .cons hl h⟩

/-! ### Descendants -/

theorem preOrder_exists (v : V) : ∃ l, PreOrder v l := by
  by_cases h : isStructure v = true
  · exact ⟨_, walkdown_spec (ord := Oracle.id 0) (fun _ _ => List.Perm.refl _) v [] h⟩
  · exact ⟨[], .other v (by simpa using h)⟩

theorem preOrders_perm {vs vs' : List V} (hp : vs.Perm vs') : ∀ {l : List V}, PreOrders vs l → ∃ l', PreOrders vs' l' ∧ l.Perm l' := by
  induction hp with
  | nil => intro l h; exact ⟨l, h, .refl _⟩
  | cons x _ ih =>
    intro l h
    cases h with
    | cons _ _ l1 l2 h1 h2 =>
      obtain ⟨l', h3, h4⟩ := ih h2
      exact ⟨l1 ++ l', .cons _ _ _ _ h1 h3, h4.append_left l1⟩
  | swap x y r =>
    intro l h
    cases h with
    | cons _ _ l1 l2 h1 h2 =>
      cases h2 with
      | cons _ _ l3 l4 h3 h4 =>
        refine ⟨l3 ++ (l1 ++ l4), .cons _ _ _ _ h3 (.cons _ _ _ _ h1 h4), ?_⟩
        rw [← List.append_assoc, ← List.append_assoc]
        exact List.perm_append_comm.append_right l4
  | trans _ _ ih1 ih2 =>
    intro l h
    obtain ⟨l1, h1, h2⟩ := ih1 h
    obtain ⟨l2, h3, h4⟩ := ih2 h1
    exact ⟨l2, h3, h2.trans h4⟩

mutual
theorem preOrder_shuffled : ∀ {v v' : V}, Shuffled v v' → ∃ l l', PreOrder v l ∧ PreOrder v' l' ∧ SameBag l l'
  | _, _, .same v => by
    obtain ⟨l, h⟩ := preOrder_exists v
    exact ⟨l, l, h, h, .same l⟩
  | _, _, .arr ha hp => by
    obtain ⟨l, m, h1, h2, h3⟩ := preOrders_shuffled ha
    obtain ⟨m', h4, h5⟩ := preOrders_perm hp h2
    exact ⟨_, _, .arr _ _ h1, .arr _ _ h4, .cons (.arr ha hp) (h3.trans_perm h5)⟩
  | _, _, .obj hk ha => by
    obtain ⟨l, m, h1, h2, h3⟩ := preOrders_shuffled ha
    exact ⟨_, _, .obj _ _ _ (.refl _) h1, .obj _ _ _ (.refl _) h2, .cons (.obj hk ha) h3⟩
theorem preOrders_shuffled : ∀ {vs vs' : List V}, All2 Shuffled vs vs' → ∃ l l', PreOrders vs l ∧ PreOrders vs' l' ∧ SameBag l l'
  | _, _, .nil => ⟨[], [], .nil, .nil, .same _⟩
  | _, _, .cons h r => by
    obtain ⟨l, m, h1, h2, h3⟩ := preOrder_shuffled h
    obtain ⟨l', m', h4, h5, h6⟩ := preOrders_shuffled r
    exact ⟨_, _, .cons _ _ _ _ h1 h4, .cons _ _ _ _ h2 h5, h3.append h6⟩
end

theorem applies_preOrder {sels : List Selector} {v : V} {l : List V} (h : PreOrder v l) (hw : v.WF) {ls : List (List V)} (hl : All2 (Bracketed sels) l ls) :
    Applies (.descend sels) v ls.flatten := by
  obtain ⟨ds, h1, h2⟩ := preOrder_visits h hw
  rw [← h2] at hl
  obtain ⟨ls', h3, h4⟩ := bracketed_structures hl
  rw [← h4]
  exact .descend h1 h3

theorem applies_shuffled {seg : Segment} (hs : ∀ s ∈ seg.sels, (∃ n, s = .name n) ∨ s = .wild) {v v' : V} (h : Shuffled v v') (hw : v.WF) (hw' : v'.WF)
    {l l' : List V} (h1 : Applies seg v l) (h2 : Applies seg v' l') : SameBag l l' := by
  cases seg with
  | child sels => cases h1 with | child h1 => cases h2 with | child h2 => exact bracketed_shuffled hs h hw hw' h1 h2
  | descend sels =>
    obtain ⟨a, a', p1, p2, p3⟩ := preOrder_shuffled h
    obtain ⟨ls, q1⟩ := brackets_exist hs a
    obtain ⟨ls', q2⟩ := brackets_exist hs a'
    have wf : ∀ {v : V} {a : List V}, PreOrder v a → v.WF → ∀ w ∈ a, w.WF := by
      intro v a p hw w hm
      obtain ⟨_, pl, hp⟩ := preOrder_at p w hm
      exact hw.at hp
    have hb : SameBag ls.flatten ls'.flatten :=
      bag_flatten (P := Bracketed sels) (W := V.WF) (fun v v' l l' h w w' => bracketed_shuffled hs h w w') p3 (wf p1 hw) (wf p2 hw') q1 q2
    exact .perm_trans (applies_perm hw h1 (applies_preOrder p1 hw q1)) (hb.trans_perm (applies_perm hw' (applies_preOrder p2 hw' q2) h2))

theorem gives_shuffled {root root' : V} (h : Shuffled root root') (hw : root.WF) (hw' : root'.WF) {q : Query} {l l' : List V}
    (h1 : Gives root q l) (hq : NoCounting q) (h2 : Gives root' q l') : SameBag l l' := by
  induction h1 generalizing l' with
  | root =>
    generalize he : ([] : Query) = q0 at h2
    cases h2 with
    | root => exact ⟨[root'], .cons h .nil, .refl _⟩
    | segment => simp at he
  | @segment q seg vs ls g1 a1 ih =>
    generalize he : q ++ [seg] = q0 at h2
    cases h2 with
    | root => simp at he
    | @segment q' seg' _ _ g2 a2 =>
      have e := List.append_inj' he rfl
      obtain ⟨e1, e2⟩ := e
      simp only [List.cons.injEq, and_true] at e2
      subst e1
      subst e2
      have hb := ih (fun seg hs => hq seg (by simp [hs])) g2
      exact bag_flatten (P := Applies seg) (W := V.WF) (fun v v' l l' h w w' => applies_shuffled (hq seg (by simp)) h w w') hb (gives_wf hw g1) (gives_wf hw' g2) a1 a2

end JP
