import Verif.Proof.Conc.Exec
/-!
A producer of `Model/Conc.lean` sends the values that `stepping` and `walker` of `Model/Machine.lean` list,
in that order, whatever else happens in between.
-/
namespace JP.Conc

/-- What `walkdown` sends for one element. -/
def below (ord : Ord) (loc : List Nat) (v : V) : List V := if isStructure v then walkdown ord loc v else []

mutual
/-- The steps that a producer takes to go down a value, its `walk` and receptions not counted. -/
def downCost (ord : Ord) (loc : List Nat) : V → Nat
  | .arr xs => 2 + downElemsCost ord loc 0 xs
  | .obj kvs => 2 + (permute (ord loc kvs.length) (downMembersCost ord loc 0 kvs)).sum
  | _ => 1
/-- Those for the elements from `i`. -/
def downElemsCost (ord : Ord) (loc : List Nat) (i : Nat) : List V → Nat
  | [] => 0
  | v :: vs => 1 + (if isStructure v then 1 + downCost ord (i :: loc) v else 0) + downElemsCost ord loc (i + 1) vs
/-- Those for each member. -/
def downMembersCost (ord : Ord) (loc : List Nat) (i : Nat) : List (Bytes × V) → List Nat
  | [] => []
  | (_, v) :: r => (1 + if isStructure v then 1 + downCost ord (i :: loc) v else 0) :: downMembersCost ord loc (i + 1) r
end

/-- The steps for one element. -/
def belowCost (ord : Ord) (loc : List Nat) (v : V) : Nat := if isStructure v then 1 + downCost ord loc v else 0

/-- The steps of `stepping`, from element `i`. -/
def stepCost (ord : Ord) (i : Nat) : List V → Nat
  | [] => 0
  | v :: vs => 2 + (children ord [i] v).length + stepCost ord (i + 1) vs

/-- The steps of `walker`, from element `i`. -/
def walkCost (ord : Ord) (i : Nat) : List V → Nat
  | [] => 0
  | v :: vs => 1 + belowCost ord [i] v + walkCost ord (i + 1) vs

/-- The values that a loop of a producer has yet to send, and the number of steps that it takes to do so. -/
inductive Den (F : Addr → Prop) (h : Heap) (ord : Ord) : Frame → List V → Nat → Prop where
  | step (r : SRef) (i : Nat) (xs : List V) (hr : Rep F h (.arr r) (.arr xs)) :
      Den F h ord (.each false r i) (stepping ord i (xs.drop i)) (1 + stepCost ord i (xs.drop i))
  | walker (r : SRef) (i : Nat) (xs : List V) (hr : Rep F h (.arr r) (.arr xs)) :
      Den F h ord (.each true r i) (JP.walker ord i (xs.drop i)) (1 + walkCost ord i (xs.drop i))
  | elems (r : SRef) (i : Nat) (xs : List V) (hr : Rep F h (.arr r) (.arr xs)) :
      Den F h ord (.elems r i) (xs.drop i) (1 + (xs.drop i).length)
  | members (vs : List HV) (ws : List V) (hr : RepL F h vs ws) : Den F h ord (.members vs) ws (1 + ws.length)
  | walk (v : HV) (loc : List Nat) (w : V) (hr : Rep F h v w) :
      Den F h ord (.walk v loc) (walkdown ord loc w) (1 + downCost ord loc w)
  | down (v : HV) (loc : List Nat) (w : V) (hr : Rep F h v w) :
      Den F h ord (.down v loc) (walkdown ord loc w).tail (downCost ord loc w)
  | downElems (r : SRef) (i : Nat) (loc : List Nat) (xs : List V) (hr : Rep F h (.arr r) (.arr xs)) :
      Den F h ord (.downElems r i loc) (walkElems ord loc i (xs.drop i)) (1 + downElemsCost ord loc i (xs.drop i))
  | downMembers (vs : List (Nat × HV)) (loc : List Nat) (ws : List (Nat × V))
      (hi : vs.map Prod.fst = ws.map Prod.fst) (hr : RepL F h (vs.map Prod.snd) (ws.map Prod.snd)) :
      Den F h ord (.downMembers vs loc) ((ws.map fun p => below ord (p.1 :: loc) p.2).flatten)
        (1 + (ws.map fun p => 1 + belowCost ord (p.1 :: loc) p.2).sum)

/-- The values that the loops of a producer have yet to send. -/
inductive DenAll (F : Addr → Prop) (h : Heap) (ord : Ord) : List Frame → List V → Nat → Prop where
  | nil : DenAll F h ord [] [] 0
  | cons (f : Frame) (fs : List Frame) (L M : List V) (n m : Nat) (h1 : Den F h ord f L n) (h2 : DenAll F h ord fs M m) :
      DenAll F h ord (f :: fs) (L ++ M) (n + m)

/-- The value that a producer is trying to send. -/
def Pending (F : Addr → Prop) (h : Heap) : Option HV → List V → Prop
  | none, L => L = []
  | some x, L => ∃ v, L = [v] ∧ Rep F h x v

/-- The producer has yet to send `L`, which takes it `n` steps. -/
structure ProdRep (F : Addr → Prop) (h : Heap) (P : Producer) (L : List V) (n : Nat) : Prop where
  rep : ∃ pv M m, L = pv ++ M ∧ Pending F h P.pending pv ∧ DenAll F h P.ord P.frames M m ∧
    n = m + if P.closed then 0 else 1
  closed : P.closed = true → P.frames = [] ∧ P.pending = none

theorem Den.mono {F F' : Addr → Prop} {h h' : Heap} {ord : Ord} (hf : ∀ a, F a → F' a)
    (hg : ∀ a, F a → h'.get a = h.get a) {f : Frame} {L : List V} {n : Nat} (hd : Den F h ord f L n) :
    Den F' h' ord f L n := by
  cases hd with
  | step r i xs hr => exact .step r i xs (hr.mono hf hg)
  | walker r i xs hr => exact .walker r i xs (hr.mono hf hg)
  | elems r i xs hr => exact .elems r i xs (hr.mono hf hg)
  | members vs ws hr => exact .members vs _ (hr.mono hf hg)
  | walk v loc w hr => exact .walk v loc w (hr.mono hf hg)
  | down v loc w hr => exact .down v loc w (hr.mono hf hg)
  | downElems r i loc xs hr => exact .downElems r i loc xs (hr.mono hf hg)
  | downMembers vs loc ws hi hr => exact .downMembers vs loc ws hi (hr.mono hf hg)

theorem DenAll.mono {F F' : Addr → Prop} {h h' : Heap} {ord : Ord} (hf : ∀ a, F a → F' a)
    (hg : ∀ a, F a → h'.get a = h.get a) {fs : List Frame} {L : List V} {n : Nat}
    (hd : DenAll F h ord fs L n) : DenAll F' h' ord fs L n := by
  induction hd with
  | nil => exact .nil
  | cons f fs L M n m h1 _ ih => exact .cons f fs L M n m (h1.mono hf hg) ih

theorem ProdRep.mono {F F' : Addr → Prop} {h h' : Heap} (hf : ∀ a, F a → F' a)
    (hg : ∀ a, F a → h'.get a = h.get a) {P : Producer} {L : List V} {n : Nat} (hp : ProdRep F h P L n) :
    ProdRep F' h' P L n where
  rep := by
    obtain ⟨pv, M, m, h1, h2, h3, hn⟩ := hp.rep
    refine ⟨pv, M, m, h1, ?_, h3.mono hf hg, hn⟩
    cases hpd : P.pending with
    | none => rw [hpd] at h2; exact h2
    | some x =>
      rw [hpd] at h2
      obtain ⟨v, h4, h5⟩ := h2
      exact ⟨v, h4, h5.mono hf hg⟩
  closed := hp.closed

/-! ## Elements -/

theorem Rep.cell {F : Addr → Prop} {h : Heap} {r : SRef} {xs : List V} (hr : Rep F h (.arr r) (.arr xs)) {i : Nat}
    {v : V} (hi : xs[i]? = some v) : ∃ x, h.cell r.arr (r.off + i) = some x ∧ Rep F h x v := by
  have hs : Src 0 F (fun _ => False) h r xs := src_of_rep (fun _ h => h.elim) hr
  exact hs.cell (Ext.refl 0 _ h) hi

theorem Rep.len {F : Addr → Prop} {h : Heap} {r : SRef} {xs : List V} (hr : Rep F h (.arr r) (.arr xs)) :
    r.len = xs.length := by
  have hs : Src 0 F (fun _ => False) h r xs := src_of_rep (fun _ h => h.elim) hr
  exact hs.len

/-- Element `i` of the slice, as read. -/
theorem Rep.cell' {F : Addr → Prop} {h : Heap} {r : SRef} {xs : List V} (hr : Rep F h (.arr r) (.arr xs)) {i : Nat}
    {x : HV} (hi : i < r.len) (hc : h.cell r.arr (r.off + i) = some x) :
    ∃ v, xs.drop i = v :: xs.drop (i + 1) ∧ Rep F h x v := by
  rw [hr.len] at hi
  obtain ⟨x', h1, h2⟩ := hr.cell (List.getElem?_eq_getElem hi)
  rw [hc] at h1; cases h1
  exact ⟨_, List.drop_eq_getElem_cons hi, h2⟩

theorem Rep.dropEnd {F : Addr → Prop} {h : Heap} {r : SRef} {xs : List V} (hr : Rep F h (.arr r) (.arr xs)) {i : Nat}
    (hi : r.len ≤ i) : xs.drop i = [] := by
  rw [hr.len] at hi
  simpa using hi

theorem Rep.isStructure {F : Addr → Prop} {h : Heap} {x : HV} {v : V} (hr : Rep F h x v) :
    x.isStructure = JP.isStructure v := by
  cases hr with
  | atom v hv => rw [hv]; rfl
  | arr => rfl
  | obj => rfl

/-- The walk down one element, before the rest. -/
theorem denAll_below {F : Addr → Prop} {h : Heap} {ord : Ord} {x : HV} {v : V} {loc : List Nat} {fs : List Frame}
    {M : List V} {n : Nat} (hr : Rep F h x v) (hd : DenAll F h ord fs M n) :
    DenAll F h ord ((if x.isStructure then [Frame.walk x loc] else []) ++ fs) (below ord loc v ++ M)
      (belowCost ord loc v + n) := by
  rw [hr.isStructure]
  unfold below belowCost
  split
  · exact .cons _ _ _ _ _ _ (.walk x loc v hr) hd
  · simpa using hd

theorem walkMembers_eq (ord : Ord) (loc : List Nat) (kvs : List (Bytes × V)) : ∀ i,
    walkMembers ord loc i kvs = (((kvs.map Prod.snd).zipIdx i).map fun p => (p.2, p.1)).map
      fun p => below ord (p.1 :: loc) p.2 := by
  induction kvs with
  | nil => intro i; simp [walkMembers]
  | cons kv r ih =>
    intro i
    obtain ⟨k, v⟩ := kv
    simp only [walkMembers, List.map_cons, List.zipIdx_cons, below]
    rw [ih (i + 1)]
    simp only [List.map_map, below]

theorem downMembersCost_eq (ord : Ord) (loc : List Nat) (kvs : List (Bytes × V)) : ∀ i,
    downMembersCost ord loc i kvs = (((kvs.map Prod.snd).zipIdx i).map fun p => (p.2, p.1)).map
      fun p => 1 + belowCost ord (p.1 :: loc) p.2 := by
  induction kvs with
  | nil => intro i; simp [downMembersCost]
  | cons kv r ih =>
    intro i
    obtain ⟨k, v⟩ := kv
    simp only [downMembersCost, List.map_cons, List.zipIdx_cons, belowCost]
    rw [ih (i + 1)]
    simp only [List.map_map, belowCost]

theorem permute_map {α β : Type} (p : List Nat) (xs : List α) (f : α → β) :
    permute p (xs.map f) = (permute p xs).map f := by
  unfold permute
  rw [List.map_filterMap]
  congr 1
  funext i
  simp

theorem walkdown_tail_arr (ord : Ord) (loc : List Nat) (xs : List V) :
    (walkdown ord loc (.arr xs)).tail = walkElems ord loc 0 xs := by simp [walkdown]

theorem walkdown_tail_obj (ord : Ord) (loc : List Nat) (kvs : List (Bytes × V)) :
    (walkdown ord loc (.obj kvs)).tail = (permute (ord loc kvs.length) (walkMembers ord loc 0 kvs)).flatten := by
  simp [walkdown]

theorem walkdown_tail_atom (ord : Ord) (loc : List Nat) (v : V) (hv : JP.isStructure v = false) :
    (walkdown ord loc v).tail = [] := by cases v <;> first | (simp [JP.isStructure] at hv; done) | simp [walkdown]

theorem walkdown_head (ord : Ord) (loc : List Nat) (v : V) : walkdown ord loc v = v :: (walkdown ord loc v).tail := by
  cases v <;> simp [walkdown]

/-! ## Steps -/

/-- Fewer steps to go. -/
macro "lt" : tactic => `(tactic| (
  try simp only [stepCost, walkCost, downCost, downElemsCost, belowCost, children, List.length_cons, List.length_nil, List.drop_zero,
    List.map_cons, List.sum_cons]
  omega))

/-- A step of a producer changes nothing about what it has yet to send, and it is one step less to go. -/
theorem ProdRep.step {F : Addr → Prop} {h : Heap} {P P' : Producer} {L : List V} {n : Nat} (hs : P.Step h P')
    (hp : ProdRep F h P L n) : ∃ n', n' < n ∧ ProdRep F h P' L n' := by
  obtain ⟨pv, M, m0, rfl, h2, h3, rfl⟩ := hp.rep
  obtain ⟨po, pf, pp, pc⟩ := P
  dsimp only at h2 h3 ⊢
  have hpc : pc = false := by cases hs <;> rfl
  subst hpc
  simp only [Bool.false_eq_true, if_false]
  have plain : ∀ (M : List V) (m : Nat) (o : Ord) (fs : List Frame), P' = ⟨o, fs, none, false⟩ → pp = none →
      (∃ m', DenAll F h o fs M m' ∧ m' < m) → ∃ n', n' < m + 1 ∧ ProdRep F h P' (pv ++ M) n' := by
    rintro M m o fs h4 h5 ⟨m', h6, hm⟩
    rw [h5] at h2
    subst h4
    exact ⟨m' + 1, by omega, ⟨[], M, m', by rw [show pv = [] from h2], rfl, h6, by simp⟩, fun h => by cases h⟩
  have send : ∀ (M : List V) (m m' : Nat) (o : Ord) (fs : List Frame) (x : HV) (v : V) (N : List V),
      P' = ⟨o, fs, some x, false⟩ → pp = none → M = v :: N → Rep F h x v → DenAll F h o fs N m' → m' < m →
      ∃ n', n' < m + 1 ∧ ProdRep F h P' (pv ++ M) n' := by
    intro M m m' o fs x v N h4 h5 h6 h7 h8 hm
    rw [h5] at h2
    subst h4
    exact ⟨m' + 1, by omega, ⟨[v], N, m', by rw [show pv = [] from h2, h6]; rfl, ⟨v, rfl, h7⟩, h8, by simp⟩,
      fun h => by cases h⟩
  cases hs with
  | close o =>
    cases h3
    exact ⟨0, by omega, ⟨pv, [], 0, rfl, h2, .nil, by simp⟩, fun _ => ⟨rfl, rfl⟩⟩
  | eachArr o r i fs r' hi hc =>
    cases h3 with
    | cons _ _ L M a b h4 h5 =>
      cases h4 with
      | step _ _ xs hr =>
        obtain ⟨v, h6, h7⟩ := hr.cell' hi hc
        rw [h6]
        cases h7 with
        | arr _ cs vs g1 g2 g3 g4 =>
          refine plain _ _ _ _ rfl rfl ?_
          simp only [stepping, children, List.append_assoc]
          exact ⟨_, .cons _ _ _ _ _ _ (.elems r' 0 vs (.arr r' cs vs g1 g2 g3 g4)) (.cons _ _ _ _ _ _ (.step r _ xs hr) h5), by lt⟩
  | eachObj o r i fs a m hi hc hg =>
    cases h3 with
    | cons _ _ L M a b h4 h5 =>
      cases h4 with
      | step _ _ xs hr =>
        obtain ⟨v, h6, h7⟩ := hr.cell' hi hc
        rw [h6]
        cases h7 with
        | obj _ m' kvs g1 g2 g3 =>
          rw [hg] at g2; cases g2
          refine plain _ _ _ _ rfl rfl ?_
          simp only [stepping, children, List.append_assoc]
          rw [← g3.length]
          exact ⟨_, .cons _ _ _ _ _ _ (.members _ _ (g3.snd.permute _)) (.cons _ _ _ _ _ _ (.step r _ xs hr) h5), by simp only [stepCost, children]; rw [g3.length]; omega⟩
  | eachAtom o r i fs w hi hc =>
    cases h3 with
    | cons _ _ L M a b h4 h5 =>
      cases h4 with
      | step _ _ xs hr =>
        obtain ⟨v, h6, h7⟩ := hr.cell' hi hc
        rw [h6]
        cases h7 with
        | atom _ hv =>
          refine plain _ _ _ _ rfl rfl ?_
          have : children po [i] w = [] := by cases w <;> first | rfl | (simp [JP.isStructure] at hv)
          simp only [stepping, this, List.nil_append]
          exact ⟨_, .cons _ _ _ _ _ _ (.step r _ xs hr) h5, by lt⟩
  | eachEnd o w r i fs hi =>
    cases h3 with
    | cons _ _ L M a b h4 h5 =>
      cases h4 with
      | step _ _ xs hr => rw [hr.dropEnd hi]; exact plain _ _ _ _ rfl rfl ⟨_, h5, by lt⟩
      | walker _ _ xs hr => rw [hr.dropEnd hi]; exact plain _ _ _ _ rfl rfl ⟨_, h5, by lt⟩
  | elem o r i fs x hi hc =>
    cases h3 with
    | cons _ _ L M a b h4 h5 =>
      cases h4 with
      | elems _ _ xs hr =>
        obtain ⟨v, h6, h7⟩ := hr.cell' hi hc
        rw [h6]
        exact send _ _ _ _ _ _ v _ rfl rfl rfl h7 (.cons _ _ _ _ _ _ (.elems r _ xs hr) h5) (by lt)
  | elemEnd o r i fs hi =>
    cases h3 with
    | cons _ _ L M a b h4 h5 =>
      cases h4 with
      | elems _ _ xs hr => rw [hr.dropEnd hi]; exact plain _ _ _ _ rfl rfl ⟨_, h5, by lt⟩
  | member o x vs fs =>
    cases h3 with
    | cons _ _ L M a b h4 h5 =>
      cases h4 with
      | members _ _ hr =>
        cases hr with
        | cons _ v _ ws g1 g2 => exact send _ _ _ _ _ _ v _ rfl rfl rfl g1 (.cons _ _ _ _ _ _ (.members _ _ g2) h5) (by lt)
  | memberEnd o fs =>
    cases h3 with
    | cons _ _ L M a b h4 h5 =>
      cases h4 with
      | members _ _ hr => cases hr; exact plain _ _ _ _ rfl rfl ⟨_, h5, by lt⟩
  | walkEach o r i fs x hi hc =>
    cases h3 with
    | cons _ _ L M a b h4 h5 =>
      cases h4 with
      | walker _ _ xs hr =>
        obtain ⟨v, h6, h7⟩ := hr.cell' hi hc
        rw [h6]
        refine plain _ _ _ _ rfl rfl ?_
        simp only [JP.walker, List.append_assoc]
        exact ⟨_, denAll_below h7 (.cons _ _ _ _ _ _ (.walker r _ xs hr) h5), by lt⟩
  | walk o x loc fs =>
    cases h3 with
    | cons _ _ L M a b h4 h5 =>
      cases h4 with
      | walk _ _ v hr =>
        refine send _ _ _ _ _ _ v ((walkdown po loc v).tail ++ M) rfl rfl ?_ hr (.cons _ _ _ _ _ _ (.down x loc v hr) h5) (by lt)
        conv => lhs; rw [walkdown_head]
        rfl
  | downArr o r loc fs =>
    cases h3 with
    | cons _ _ L M a b h4 h5 =>
      cases h4 with
      | down _ _ v hr =>
        cases hr with
        | arr _ cs vs g1 g2 g3 g4 =>
          refine plain _ _ _ _ rfl rfl ?_
          rw [walkdown_tail_arr]
          exact ⟨_, .cons _ _ _ _ _ _ (.downElems r 0 loc vs (.arr r cs vs g1 g2 g3 g4)) h5, by lt⟩
  | downObj o a m loc fs hg =>
    cases h3 with
    | cons _ _ L M a b h4 h5 =>
      cases h4 with
      | down _ _ v hr =>
        cases hr with
        | obj _ m' kvs g1 g2 g3 =>
          rw [hg] at g2; cases g2
          refine plain _ _ _ _ rfl rfl ?_
          rw [walkdown_tail_obj, walkMembers_eq, ← g3.length,
            permute_map _ _ (fun p : Nat × V => below po (p.1 :: loc) p.2)]
          refine ⟨_, .cons _ _ _ _ _ _ (.downMembers _ loc _ ?_ ?_) h5, ?_⟩
          · rw [← permute_map, ← permute_map]
            simp only [List.map_map]
            have hl := g3.length
            have : ∀ {α : Type} (xs : List α) (i : Nat), (xs.zipIdx i).map (fun p : α × Nat => p.2) = List.range' i xs.length :=
              fun xs i => List.zipIdx_map_snd i xs
            simp only [Function.comp_def, this, List.length_map, hl]
          · rw [← permute_map, ← permute_map]
            simp only [List.map_map]
            have : ∀ {α : Type} (xs : List α) (i : Nat), (xs.zipIdx i).map (fun p : α × Nat => p.1) = xs :=
              fun xs i => List.zipIdx_map_fst i xs
            simp only [Function.comp_def, this]
            exact g3.snd.permute _
          · simp only [downCost]
            rw [downMembersCost_eq, permute_map _ _ (fun p : Nat × V => 1 + belowCost po (p.1 :: loc) p.2)]
            rw [g3.length]; omega
  | downAtom o w loc fs =>
    cases h3 with
    | cons _ _ L M a b h4 h5 =>
      cases h4 with
      | down _ _ v hr =>
        cases hr with
        | atom _ hv => rw [walkdown_tail_atom _ _ _ hv]; exact plain _ _ _ _ rfl rfl ⟨_, h5, by
            have : downCost po loc w = 1 := by cases w <;> first | rfl | (simp [JP.isStructure] at hv) | simp [downCost]
            omega⟩
  | downElem o r i loc fs x hi hc =>
    cases h3 with
    | cons _ _ L M a b h4 h5 =>
      cases h4 with
      | downElems _ _ _ xs hr =>
        obtain ⟨v, h6, h7⟩ := hr.cell' hi hc
        rw [h6]
        refine plain _ _ _ _ rfl rfl ?_
        simp only [walkElems, List.append_assoc]
        exact ⟨_, denAll_below h7 (.cons _ _ _ _ _ _ (.downElems r _ loc xs hr) h5), by lt⟩
  | downElemEnd o r i loc fs hi =>
    cases h3 with
    | cons _ _ L M a b h4 h5 =>
      cases h4 with
      | downElems _ _ _ xs hr => rw [hr.dropEnd hi]; exact plain _ _ _ _ rfl rfl ⟨_, (by simpa [walkElems] using h5), by lt⟩
  | downMember o i x vs loc fs =>
    cases h3 with
    | cons _ _ L M a b h4 h5 =>
      cases h4 with
      | downMembers _ _ ws hi hr =>
        cases ws with
        | nil => cases hi
        | cons w ws =>
          simp only [List.map_cons, List.cons.injEq] at hi hr
          cases hr with
          | cons _ _ _ _ g1 g2 =>
            refine plain _ _ _ _ rfl rfl ?_
            simp only [List.map_cons, List.flatten_cons, List.append_assoc]
            rw [← hi.1]
            exact ⟨_, denAll_below g1 (.cons _ _ _ _ _ _ (.downMembers vs loc ws hi.2 g2) h5), by lt⟩
  | downMemberEnd o loc fs =>
    cases h3 with
    | cons _ _ L M a b h4 h5 =>
      cases h4 with
      | downMembers _ _ ws hi hr =>
        cases ws with
        | nil => exact plain _ _ _ _ rfl rfl ⟨_, h5, by lt⟩
        | cons w ws => cases hi

/-- A producer that is not waiting to send and has not returned can go on. -/
theorem ProdRep.can {F : Addr → Prop} {h : Heap} {P : Producer} {L : List V} {n : Nat} (hp : ProdRep F h P L n)
    (h1 : P.pending = none) (h2 : P.closed = false) : ∃ P', P.Step h P' := by
  obtain ⟨pv, M, m, _, _, h3, _⟩ := hp.rep
  obtain ⟨o, fs, pd, cl⟩ := P
  simp only at h1 h2 h3
  subst h1 h2
  cases h3 with
  | nil => exact ⟨_, .close o⟩
  | cons f fs L M a b h4 h5 =>
    cases h4 with
    | step r i xs hr =>
      by_cases hi : i < r.len
      · obtain ⟨x, h6, h7⟩ := hr.cell (List.getElem?_eq_getElem (by rw [← hr.len]; exact hi))
        cases x with
        | atom v => exact ⟨_, .eachAtom o r i fs v hi h6⟩
        | arr r' => exact ⟨_, .eachArr o r i fs r' hi h6⟩
        | obj a =>
          generalize xs[i]'_ = w at h7
          cases h7 with
          | obj _ m kvs g1 g2 g3 => exact ⟨_, .eachObj o r i fs a m hi h6 g2⟩
      · exact ⟨_, .eachEnd o false r i fs (by omega)⟩
    | walker r i xs hr =>
      by_cases hi : i < r.len
      · obtain ⟨x, h6, h7⟩ := hr.cell (List.getElem?_eq_getElem (by rw [← hr.len]; exact hi))
        exact ⟨_, .walkEach o r i fs x hi h6⟩
      · exact ⟨_, .eachEnd o true r i fs (by omega)⟩
    | elems r i xs hr =>
      by_cases hi : i < r.len
      · obtain ⟨x, h6, h7⟩ := hr.cell (List.getElem?_eq_getElem (by rw [← hr.len]; exact hi))
        exact ⟨_, .elem o r i fs x hi h6⟩
      · exact ⟨_, .elemEnd o r i fs (by omega)⟩
    | members vs ws hr =>
      cases vs with
      | nil => exact ⟨_, .memberEnd o fs⟩
      | cons v vs => exact ⟨_, .member o v vs fs⟩
    | walk v loc w hr => exact ⟨_, .walk o v loc fs⟩
    | down v loc w hr =>
      cases hr with
      | atom w hv => exact ⟨_, .downAtom o w loc fs⟩
      | arr r cs vs g1 g2 g3 g4 => exact ⟨_, .downArr o r loc fs⟩
      | obj a m kvs g1 g2 g3 => exact ⟨_, .downObj o a m loc fs g2⟩
    | downElems r i loc xs hr =>
      by_cases hi : i < r.len
      · obtain ⟨x, h6, h7⟩ := hr.cell (List.getElem?_eq_getElem (by rw [← hr.len]; exact hi))
        exact ⟨_, .downElem o r i loc fs x hi h6⟩
      · exact ⟨_, .downElemEnd o r i loc fs (by omega)⟩
    | downMembers vs loc ws hi hr =>
      cases vs with
      | nil => exact ⟨_, .downMemberEnd o loc fs⟩
      | cons v vs => exact ⟨_, .downMember o v.1 v.2 vs loc fs⟩

/-- What is received is the first value yet to be sent. -/
theorem ProdRep.recv {F : Addr → Prop} {h : Heap} {P : Producer} {L : List V} {x : HV} {n : Nat} (hp : ProdRep F h P L n)
    (hx : P.pending = some x) : ∃ v M, L = v :: M ∧ Rep F h x v ∧ ProdRep F h { P with pending := none } M n := by
  obtain ⟨pv, M, m, rfl, h2, h3, hn⟩ := hp.rep
  rw [hx] at h2
  obtain ⟨v, rfl, h4⟩ := h2
  refine ⟨v, M, rfl, h4, ⟨[], M, m, rfl, rfl, h3, hn⟩, fun hc => ?_⟩
  have := (hp.closed hc).2
  rw [hx] at this; cases this

/-- A closed channel has nothing more to deliver. -/
theorem ProdRep.end_ {F : Addr → Prop} {h : Heap} {P : Producer} {L : List V} {n : Nat} (hp : ProdRep F h P L n)
    (hc : P.closed = true) : L = [] := by
  obtain ⟨pv, M, m, rfl, h2, h3, hn⟩ := hp.rep
  obtain ⟨h4, h5⟩ := hp.closed hc
  rw [h5] at h2
  rw [h4] at h3
  cases h3
  rw [show pv = [] from h2]; rfl

/-- The steps that a producer takes in all. -/
def startCost (ord : Ord) (walk : Bool) (xs : List V) : Nat :=
  2 + if walk then walkCost ord 0 xs else stepCost ord 0 xs

/-- The producer just started. -/
theorem prodRep_start {F : Addr → Prop} {h : Heap} {ord : Ord} {walk : Bool} {r : SRef} {xs : List V}
    (hr : Rep F h (.arr r) (.arr xs)) :
    ProdRep F h (Producer.start ord walk r) (if walk then JP.walker ord 0 xs else stepping ord 0 xs)
      (startCost ord walk xs) := by
  refine ⟨⟨[], (if walk then JP.walker ord 0 xs else stepping ord 0 xs) ++ [],
    (1 + if walk then walkCost ord 0 xs else stepCost ord 0 xs) + 0, by simp, rfl, ?_, ?_⟩, fun hc => by cases hc⟩
  · refine .cons _ _ _ _ _ _ ?_ .nil
    cases walk with
    | true => exact .walker r 0 xs hr
    | false => exact .step r 0 xs hr
  · simp only [startCost, Producer.start, Bool.false_eq_true, if_false]
    omega

end JP.Conc
