import Verif.Model.Conc
/-!
Memory of the model in `Model/Conc.lean`: representation of values, and a calculus (`wp`) for code of one
evaluation that reads only what it owns or what is frozen and writes only what it owns and is not frozen.
-/
namespace JP.Conc

/-! ## Heaps -/

theorem get_put {h : Heap} {a b : Addr} {o o' : Obj} (ha : h.get a = some o') :
    (h.put a o).get b = if b = a then some o else h.get b := by
  unfold Heap.get Heap.put at *
  by_cases hb : b = a
  · subst hb
    have hlt : b.idx < (h b.owner).length := by
      rw [List.getElem?_eq_some_iff] at ha; exact ha.1
    simp [hlt]
  · simp only [hb, if_false]
    split
    · rename_i ho
      have : b.idx ≠ a.idx := by
        intro hi; apply hb; cases a; cases b; simp_all
      rw [List.getElem?_set]
      split
      · omega
      · rfl
    · rfl

theorem get_setCell {h : Heap} {a b : Addr} {i : Nat} {v : HV} {cs : List HV}
    (ha : h.get a = some (.cells cs)) :
    (h.setCell a i v).get b = if b = a then some (.cells (cs.set i v)) else h.get b := by
  unfold Heap.setCell
  simp only [ha]
  exact get_put ha

theorem get_alloc (h : Heap) (e : Nat) (o : Obj) (b : Addr) :
    (h.alloc e o).get b = if b = h.fresh e then some o else h.get b := by
  unfold Heap.get Heap.alloc Heap.fresh
  by_cases hb : b = ⟨e, (h e).length⟩
  · subst hb; simp
  · simp only [hb, if_false]
    split
    · rename_i ho
      subst ho
      have : b.idx ≠ (h b.owner).length := by
        intro hi; apply hb; cases b; simp_all
      rw [List.getElem?_append]
      split
      · rfl
      · rw [List.getElem?_eq_none (by simp; omega), List.getElem?_eq_none (by omega)]
    · rfl

theorem get_fresh (h : Heap) (e : Nat) : h.get (h.fresh e) = none := by
  simp [Heap.get, Heap.fresh]

theorem cell_of {h : Heap} {a : Addr} {cs : List HV} (ha : h.get a = some (.cells cs)) (i : Nat) :
    h.cell a i = cs[i]? := by simp [Heap.cell, ha]

/-! ## Representation -/

mutual
theorem Rep.mono {F F' : Addr → Prop} {h h' : Heap} (hf : ∀ a, F a → F' a)
    (hg : ∀ a, F a → h'.get a = h.get a) : ∀ {x : HV} {v : V}, Rep F h x v → Rep F' h' x v
  | _, _, .atom v hv => .atom v hv
  | _, _, .arr r cs vs h1 h2 h3 h4 => .arr r cs vs (hf _ h1) (by rw [hg _ h1]; exact h2) h3 (RepL.mono hf hg h4)
  | _, _, .obj a m kvs h1 h2 h3 => .obj a m kvs (hf _ h1) (by rw [hg _ h1]; exact h2) (RepM.mono hf hg h3)
theorem RepL.mono {F F' : Addr → Prop} {h h' : Heap} (hf : ∀ a, F a → F' a)
    (hg : ∀ a, F a → h'.get a = h.get a) : ∀ {x : List HV} {v : List V}, RepL F h x v → RepL F' h' x v
  | _, _, .nil => .nil
  | _, _, .cons x v xs vs h1 h2 => .cons x v xs vs (Rep.mono hf hg h1) (RepL.mono hf hg h2)
theorem RepM.mono {F F' : Addr → Prop} {h h' : Heap} (hf : ∀ a, F a → F' a)
    (hg : ∀ a, F a → h'.get a = h.get a) : ∀ {x : List (Bytes × HV)} {v : List (Bytes × V)},
    RepM F h x v → RepM F' h' x v
  | _, _, .nil => .nil
  | _, _, .cons k x v xs vs h1 h2 => .cons k x v xs vs (Rep.mono hf hg h1) (RepM.mono hf hg h2)
end

mutual
/-- A value in memory stands for one value. -/
theorem Rep.unique {F F' : Addr → Prop} {h : Heap} : ∀ {x : HV} {v w : V},
    Rep F h x v → Rep F' h x w → v = w
  | _, _, _, .atom _ _, h2 => by cases h2; rfl
  | _, _, _, .arr r cs vs _ g1 _ e1, h2 => by
    cases h2 with
    | arr _ cs' vs' _ g2 _ e2 =>
      rw [g1] at g2; cases g2
      rw [RepL.unique e1 e2]
  | _, _, _, .obj a m kvs _ g1 e1, h2 => by
    cases h2 with
    | obj _ m' kvs' _ g2 e2 =>
      rw [g1] at g2; cases g2
      rw [RepM.unique e1 e2]
theorem RepL.unique {F F' : Addr → Prop} {h : Heap} : ∀ {x : List HV} {v w : List V},
    RepL F h x v → RepL F' h x w → v = w
  | _, _, _, .nil, h2 => by cases h2; rfl
  | _, _, _, .cons x v xs vs a b, h2 => by
    cases h2 with
    | cons _ _ _ _ a' b' => rw [Rep.unique a a', RepL.unique b b']
theorem RepM.unique {F F' : Addr → Prop} {h : Heap} : ∀ {x : List (Bytes × HV)} {v w : List (Bytes × V)},
    RepM F h x v → RepM F' h x w → v = w
  | _, _, _, .nil, h2 => by cases h2; rfl
  | _, _, _, .cons k x v xs vs a b, h2 => by
    cases h2 with
    | cons _ _ _ _ _ a' b' => rw [Rep.unique a a', RepM.unique b b']
end

theorem Rep.atom_inv {F : Addr → Prop} {h : Heap} {v w : V} (hr : Rep F h (.atom v) w) :
    w = v ∧ isStructure v = false := by cases hr; exact ⟨rfl, by assumption⟩

theorem RepL.length {F : Addr → Prop} {h : Heap} : ∀ {xs : List HV} {vs : List V},
    RepL F h xs vs → xs.length = vs.length
  | _, _, .nil => rfl
  | _, _, .cons _ _ _ _ _ h2 => by simp [RepL.length h2]

theorem RepM.length {F : Addr → Prop} {h : Heap} : ∀ {xs : List (Bytes × HV)} {vs : List (Bytes × V)},
    RepM F h xs vs → xs.length = vs.length
  | _, _, .nil => rfl
  | _, _, .cons _ _ _ _ _ _ h2 => by simp [RepM.length h2]

theorem RepL.append {F : Addr → Prop} {h : Heap} : ∀ {xs : List HV} {vs : List V} {ys : List HV} {ws : List V},
    RepL F h xs vs → RepL F h ys ws → RepL F h (xs ++ ys) (vs ++ ws)
  | _, _, _, _, .nil, h2 => h2
  | _, _, _, _, .cons x v xs vs a b, h2 => .cons x v _ _ a (RepL.append b h2)

theorem RepL.get {F : Addr → Prop} {h : Heap} : ∀ {xs : List HV} {vs : List V} (_ : RepL F h xs vs) {i : Nat}
    {v : V}, vs[i]? = some v → ∃ x, xs[i]? = some x ∧ Rep F h x v
  | _, _, .nil, i, v, hv => by simp at hv
  | _, _, .cons x w xs vs a b, i, v, hv => by
    cases i with
    | zero => simp at hv; subst hv; exact ⟨x, by simp, a⟩
    | succ i => simpa using RepL.get b (by simpa using hv)

theorem RepL.get' {F : Addr → Prop} {h : Heap} {xs : List HV} {vs : List V} (hr : RepL F h xs vs) {i : Nat}
    {x : HV} (hx : xs[i]? = some x) : ∃ v, vs[i]? = some v ∧ Rep F h x v := by
  have hlt : i < xs.length := by rw [List.getElem?_eq_some_iff] at hx; exact hx.1
  have hlt' : i < vs.length := by rw [← hr.length]; exact hlt
  obtain ⟨x', hx', hr'⟩ := hr.get (List.getElem?_eq_getElem hlt')
  rw [hx] at hx'; cases hx'
  exact ⟨_, List.getElem?_eq_getElem hlt', hr'⟩

theorem RepL.take {F : Addr → Prop} {h : Heap} : ∀ {xs : List HV} {vs : List V} (_ : RepL F h xs vs) (n : Nat),
    RepL F h (xs.take n) (vs.take n)
  | _, _, .nil, n => by simpa using RepL.nil
  | _, _, .cons x w xs vs a b, n => by
    cases n with
    | zero => exact .nil
    | succ n => exact .cons _ _ _ _ a (b.take n)

theorem RepL.drop {F : Addr → Prop} {h : Heap} : ∀ {xs : List HV} {vs : List V} (_ : RepL F h xs vs) (n : Nat),
    RepL F h (xs.drop n) (vs.drop n)
  | _, _, .nil, n => by simpa using RepL.nil
  | _, _, .cons x w xs vs a b, n => by
    cases n with
    | zero => exact .cons _ _ _ _ a b
    | succ n => exact b.drop n

theorem RepL.snoc {F : Addr → Prop} {h : Heap} {xs : List HV} {vs : List V} {x : HV} {v : V}
    (h1 : RepL F h xs vs) (h2 : Rep F h x v) : RepL F h (xs ++ [x]) (vs ++ [v]) :=
  h1.append (.cons _ _ _ _ h2 .nil)

theorem RepL.permute {F : Addr → Prop} {h : Heap} {xs : List HV} {vs : List V} (hr : RepL F h xs vs) :
    ∀ (p : List Nat), RepL F h (permute p xs) (permute p vs)
  | [] => .nil
  | i :: p => by
    unfold JP.permute
    rw [List.filterMap_cons, List.filterMap_cons]
    cases hx : xs[i]? with
    | none =>
      have : vs[i]? = none := by
        rw [List.getElem?_eq_none_iff] at hx ⊢; rw [← hr.length]; exact hx
      rw [this]
      exact hr.permute p
    | some x =>
      obtain ⟨v, hv, hxv⟩ := hr.get' hx
      rw [hv]
      exact .cons _ _ _ _ hxv (hr.permute p)

theorem RepM.snd {F : Addr → Prop} {h : Heap} : ∀ {xs : List (Bytes × HV)} {vs : List (Bytes × V)},
    RepM F h xs vs → RepL F h (xs.map Prod.snd) (vs.map Prod.snd)
  | _, _, .nil => .nil
  | _, _, .cons _ _ _ _ _ a b => .cons _ _ _ _ a b.snd

theorem RepM.lookup {F : Addr → Prop} {h : Heap} : ∀ {xs : List (Bytes × HV)} {vs : List (Bytes × V)},
    RepM F h xs vs → ∀ (key : Bytes), (findMember xs key = none ∧ JP.lookup vs key = none) ∨
      ∃ x v, findMember xs key = some x ∧ JP.lookup vs key = some v ∧ Rep F h x v
  | _, _, .nil, key => .inl ⟨rfl, rfl⟩
  | _, _, .cons k x v xs vs a b, key => by
    unfold findMember JP.lookup
    by_cases hk : k = key
    · simp only [hk, if_true]; exact .inr ⟨x, v, rfl, rfl, a⟩
    · simp only [hk, if_false]; exact b.lookup key

/-! ## Code -/

/-- What evaluation `e` may read. -/
def Mine (e : Nat) (F : Addr → Prop) (a : Addr) : Prop := a.owner = e ∨ F a

/-- From heap `h` the code runs without fault, reads only what it owns or what is frozen, writes
only what it owns and is not frozen, and whatever it returns satisfies `Q`. -/
def wp {α : Type} (e : Nat) (F : Addr → Prop) (Q : α → Heap → Prop) : Prog α → Heap → Prop
  | .ret a, h => Q a h
  | .read a i k, h => Mine e F a ∧ ∃ v, h.cell a i = some v ∧ wp e F Q (k v) h
  | .write a i v k, h => a.owner = e ∧ ¬F a ∧ (∃ cs, h.get a = some (.cells cs) ∧ i < cs.length) ∧
      wp e F Q k (h.setCell a i v)
  | .make cs k, h => wp e F Q (k (h.fresh e)) (h.alloc e (.cells cs))
  | .find a key k, h => Mine e F a ∧ ∃ m, h.get a = some (.members m) ∧ wp e F Q (k (findMember m key)) h
  | .range a k, h => Mine e F a ∧ ∃ m, h.get a = some (.members m) ∧ wp e F Q (k m) h
  | .load x k, h => ∃ v, Rep (Mine e F) h x v ∧ wp e F Q (k v) h
  | .order a pc k, h => Mine e F a ∧ ∃ p, h.get a = some (.prog p) ∧ wp e F Q (k p.orders[pc]?) h
  | .const a i k, h => Mine e F a ∧ ∃ p, h.get a = some (.prog p) ∧ wp e F Q (k p.vals[i]?) h
  | .size a k, h => Mine e F a ∧ ∃ p, h.get a = some (.prog p) ∧ wp e F Q (k p.orders.length) h

theorem wp_mono {α : Type} {e : Nat} {F : Addr → Prop} {Q Q' : α → Heap → Prop}
    (hq : ∀ a h, Q a h → Q' a h) : ∀ (p : Prog α) (h : Heap), wp e F Q p h → wp e F Q' p h
  | .ret a, h, hw => hq a h hw
  | .read a i k, h, ⟨h1, v, h2, h3⟩ => ⟨h1, v, h2, wp_mono hq _ _ h3⟩
  | .write a i v k, h, ⟨h1, h2, h3, h4⟩ => ⟨h1, h2, h3, wp_mono hq _ _ h4⟩
  | .make cs k, h, hw => wp_mono hq (k (h.fresh e)) _ hw
  | .find a key k, h, ⟨h1, m, h2, h3⟩ => ⟨h1, m, h2, wp_mono hq _ _ h3⟩
  | .range a k, h, ⟨h1, m, h2, h3⟩ => ⟨h1, m, h2, wp_mono hq _ _ h3⟩
  | .load x k, h, ⟨v, h1, h2⟩ => ⟨v, h1, wp_mono hq _ _ h2⟩
  | .order a pc k, h, ⟨h1, m, h2, h3⟩ => ⟨h1, m, h2, wp_mono hq _ _ h3⟩
  | .const a i k, h, ⟨h1, m, h2, h3⟩ => ⟨h1, m, h2, wp_mono hq _ _ h3⟩
  | .size a k, h, ⟨h1, m, h2, h3⟩ => ⟨h1, m, h2, wp_mono hq _ _ h3⟩

theorem wp_bind {α β : Type} {e : Nat} {F : Addr → Prop} {Q : β → Heap → Prop} {f : α → Prog β} :
    ∀ (p : Prog α) (h : Heap), wp e F (fun a h => wp e F Q (f a) h) p h → wp e F Q (p.bind f) h
  | .ret a, h, hw => hw
  | .read a i k, h, ⟨h1, v, h2, h3⟩ => ⟨h1, v, h2, wp_bind _ _ h3⟩
  | .write a i v k, h, ⟨h1, h2, h3, h4⟩ => ⟨h1, h2, h3, wp_bind _ _ h4⟩
  | .make cs k, h, hw => wp_bind (k (h.fresh e)) _ hw
  | .find a key k, h, ⟨h1, m, h2, h3⟩ => ⟨h1, m, h2, wp_bind _ _ h3⟩
  | .range a k, h, ⟨h1, m, h2, h3⟩ => ⟨h1, m, h2, wp_bind _ _ h3⟩
  | .load x k, h, ⟨v, h1, h2⟩ => ⟨v, h1, wp_bind _ _ h2⟩
  | .order a pc k, h, ⟨h1, m, h2, h3⟩ => ⟨h1, m, h2, wp_bind _ _ h3⟩
  | .const a i k, h, ⟨h1, m, h2, h3⟩ => ⟨h1, m, h2, wp_bind _ _ h3⟩
  | .size a k, h, ⟨h1, m, h2, h3⟩ => ⟨h1, m, h2, wp_bind _ _ h3⟩

/-- An evaluation may at any time declare that it will not write some of its objects again. -/
theorem wp_freeze {α : Type} {e : Nat} {F F' : Addr → Prop} {Q : α → Heap → Prop}
    (hf : ∀ a, F a → F' a) (hf' : ∀ a, F' a → F a ∨ a.owner = e) :
    ∀ (p : Prog α) (h : Heap), wp e F' Q p h → wp e F Q p h := by
  have hm : ∀ a, Mine e F' a → Mine e F a := by
    rintro a (h1 | h1)
    · exact .inl h1
    · rcases hf' a h1 with h2 | h2
      · exact .inr h2
      · exact .inl h2
  intro p
  induction p with
  | ret a => exact fun h hw => hw
  | read a i k ih => exact fun h ⟨h1, v, h2, h3⟩ => ⟨hm _ h1, v, h2, ih _ _ h3⟩
  | write a i v k ih => exact fun h ⟨h1, h2, h3, h4⟩ => ⟨h1, fun hx => h2 (hf _ hx), h3, ih _ h4⟩
  | make cs k ih => exact fun h hw => ih _ _ hw
  | find a key k ih => exact fun h ⟨h1, m, h2, h3⟩ => ⟨hm _ h1, m, h2, ih _ _ h3⟩
  | range a k ih => exact fun h ⟨h1, m, h2, h3⟩ => ⟨hm _ h1, m, h2, ih _ _ h3⟩
  | load x k ih => exact fun h ⟨v, h1, h2⟩ => ⟨v, h1.mono hm (fun _ _ => rfl), ih _ _ h2⟩
  | order a pc k ih => exact fun h ⟨h1, m, h2, h3⟩ => ⟨hm _ h1, m, h2, ih _ _ h3⟩
  | const a i k ih => exact fun h ⟨h1, m, h2, h3⟩ => ⟨hm _ h1, m, h2, ih _ _ h3⟩
  | size a k ih => exact fun h ⟨h1, m, h2, h3⟩ => ⟨hm _ h1, m, h2, ih _ _ h3⟩

/-- Nothing that evaluation `e` can see has changed. -/
structure Agree (e : Nat) (F : Addr → Prop) (h : Heap) (F' : Addr → Prop) (h' : Heap) : Prop where
  own : h' e = h e
  ownF : ∀ a, a.owner = e → (F' a ↔ F a)
  frozen : ∀ a, F a → h'.get a = h.get a
  mono : ∀ a, F a → F' a
  valid : ∀ a, F' a → h'.get a ≠ none

theorem get_own {e : Nat} {h h' : Heap} (ho : h' e = h e) {a : Addr} (ha : a.owner = e) :
    h'.get a = h.get a := by
  subst ha; unfold Heap.get; rw [ho]

theorem Agree.get {e : Nat} {F F' : Addr → Prop} {h h' : Heap} (g : Agree e F h F' h') {a : Addr}
    (ha : Mine e F a) : h'.get a = h.get a := by
  rcases ha with ha | ha
  · exact get_own g.own ha
  · exact g.frozen a ha

theorem Agree.mine {e : Nat} {F F' : Addr → Prop} {h h' : Heap} (g : Agree e F h F' h') {a : Addr}
    (ha : Mine e F a) : Mine e F' a := ha.imp id (g.mono a)

theorem Agree.cell {e : Nat} {F F' : Addr → Prop} {h h' : Heap} (g : Agree e F h F' h') {a : Addr}
    (ha : Mine e F a) (i : Nat) : h'.cell a i = h.cell a i := by unfold Heap.cell; rw [g.get ha]

theorem Agree.refl (e : Nat) {F : Addr → Prop} {h : Heap} (hF : ∀ a, F a → h.get a ≠ none) : Agree e F h F h :=
  ⟨rfl, fun _ _ => Iff.rfl, fun _ _ => rfl, fun _ h => h, hF⟩

theorem Agree.setCell {e : Nat} {F F' : Addr → Prop} {h h' : Heap} (g : Agree e F h F' h') {a : Addr}
    (ha : a.owner = e) (hn : ¬F a) {cs : List HV} (hg : h.get a = some (.cells cs)) (i : Nat) (v : HV) :
    Agree e F (h.setCell a i v) F' (h'.setCell a i v) where
  own := by
    have hg' : h'.get a = some (.cells cs) := by rw [get_own g.own ha]; exact hg
    unfold Heap.setCell
    simp only [hg, hg', Heap.put, ha, if_true, g.own]
  ownF := g.ownF
  frozen := by
    intro b hb
    have hg' : h'.get a = some (.cells cs) := by rw [get_own g.own ha]; exact hg
    rw [get_setCell hg, get_setCell hg']
    split
    · rfl
    · exact g.frozen b hb
  mono := g.mono
  valid := by
    intro b hb
    have hg' : h'.get a = some (.cells cs) := by rw [get_own g.own ha]; exact hg
    rw [get_setCell hg']
    split
    · simp
    · exact g.valid b hb

theorem Agree.alloc {e : Nat} {F F' : Addr → Prop} {h h' : Heap} (g : Agree e F h F' h') (o : Obj) :
    Agree e F (h.alloc e o) F' (h'.alloc e o) where
  own := by simp [Heap.alloc, g.own]
  ownF := g.ownF
  frozen := by
    intro b hb
    have : h'.fresh e = h.fresh e := by simp [Heap.fresh, g.own]
    rw [get_alloc, get_alloc, this]
    split
    · rfl
    · exact g.frozen b hb
  mono := g.mono
  valid := by
    intro b hb
    rw [get_alloc]
    split
    · simp
    · exact g.valid b hb

/-- Changes by other evaluations do not matter. -/
theorem wp_agree {α : Type} {e : Nat} {F F' : Addr → Prop} {Q Q' : α → Heap → Prop}
    (hq : ∀ a h h', Agree e F h F' h' → Q a h → Q' a h') :
    ∀ (p : Prog α) (h h' : Heap), Agree e F h F' h' → wp e F Q p h → wp e F' Q' p h'
  | .ret a, h, h', g, hw => hq a h h' g hw
  | .read a i k, h, h', g, ⟨h1, v, h2, h3⟩ =>
    ⟨g.mine h1, v, by rw [g.cell h1]; exact h2, wp_agree hq _ _ _ g h3⟩
  | .write a i v k, h, h', g, ⟨h1, h2, ⟨cs, h3, h3'⟩, h4⟩ =>
    ⟨h1, fun hx => h2 ((g.ownF a h1).1 hx), ⟨cs, by rw [g.get (.inl h1)]; exact h3, h3'⟩,
      wp_agree hq _ _ _ (g.setCell h1 h2 h3 i v) h4⟩
  | .make cs k, h, h', g, hw => by
    have : h'.fresh e = h.fresh e := by simp [Heap.fresh, g.own]
    unfold wp
    rw [this]
    exact wp_agree hq (k (h.fresh e)) _ _ (g.alloc _) hw
  | .find a key k, h, h', g, ⟨h1, m, h2, h3⟩ =>
    ⟨g.mine h1, m, by rw [g.get h1]; exact h2, wp_agree hq _ _ _ g h3⟩
  | .range a k, h, h', g, ⟨h1, m, h2, h3⟩ =>
    ⟨g.mine h1, m, by rw [g.get h1]; exact h2, wp_agree hq _ _ _ g h3⟩
  | .load x k, h, h', g, ⟨v, h1, h2⟩ =>
    ⟨v, h1.mono (fun _ ha => g.mine ha) (fun _ ha => g.get ha), wp_agree hq _ _ _ g h2⟩
  | .order a pc k, h, h', g, ⟨h1, m, h2, h3⟩ =>
    ⟨g.mine h1, m, by rw [g.get h1]; exact h2, wp_agree hq _ _ _ g h3⟩
  | .const a i k, h, h', g, ⟨h1, m, h2, h3⟩ =>
    ⟨g.mine h1, m, by rw [g.get h1]; exact h2, wp_agree hq _ _ _ g h3⟩
  | .size a k, h, h', g, ⟨h1, m, h2, h3⟩ =>
    ⟨g.mine h1, m, by rw [g.get h1]; exact h2, wp_agree hq _ _ _ g h3⟩

/-- Every action keeps `wp`. -/
theorem wp_act {α : Type} {e : Nat} {F : Addr → Prop} {Q : α → Heap → Prop} {h h' : Heap} {p p' : Prog α}
    (ha : Act e h p h' p') (hw : wp e F Q p h) : wp e F Q p' h' := by
  cases ha with
  | read a i k v hc => obtain ⟨_, v', h2, h3⟩ := hw; rw [hc] at h2; cases h2; exact h3
  | write a i v hc => exact hw.2.2.2
  | make cs k => exact hw
  | find a key k m hg => obtain ⟨_, v', h2, h3⟩ := hw; rw [hg] at h2; cases h2; exact h3
  | range a k m hg => obtain ⟨_, v', h2, h3⟩ := hw; rw [hg] at h2; cases h2; exact h3
  | load x k v hr => obtain ⟨v', h2, h3⟩ := hw; rw [hr.unique h2]; exact h3
  | order a pc k m hg => obtain ⟨_, v', h2, h3⟩ := hw; rw [hg] at h2; cases h2; exact h3
  | const a i k m hg => obtain ⟨_, v', h2, h3⟩ := hw; rw [hg] at h2; cases h2; exact h3
  | size a k m hg => obtain ⟨_, v', h2, h3⟩ := hw; rw [hg] at h2; cases h2; exact h3

/-- The code can always go on until it returns. -/
theorem wp_can {α : Type} {e : Nat} {F : Addr → Prop} {Q : α → Heap → Prop} {h : Heap} {p : Prog α}
    (hw : wp e F Q p h) : (∃ a, p = .ret a) ∨ ∃ h' p', Act e h p h' p' := by
  cases p with
  | ret a => exact .inl ⟨a, rfl⟩
  | read a i k => obtain ⟨_, v, h2, _⟩ := hw; exact .inr ⟨_, _, .read h a i k v h2⟩
  | write a i v k =>
    obtain ⟨_, _, ⟨cs, h2, h3⟩, _⟩ := hw
    exact .inr ⟨_, _, .write h a i v k (by rw [cell_of h2]; simp [h3])⟩
  | make cs k => exact .inr ⟨_, _, .make h cs k⟩
  | find a key k => obtain ⟨_, m, h2, _⟩ := hw; exact .inr ⟨_, _, .find h a key k m h2⟩
  | range a k => obtain ⟨_, m, h2, _⟩ := hw; exact .inr ⟨_, _, .range h a k m h2⟩
  | load x k =>
    obtain ⟨v, h1, _⟩ := hw
    exact .inr ⟨_, _, .load h x k v (h1.mono (fun _ _ => trivial) (fun _ _ => rfl))⟩
  | order a pc k => obtain ⟨_, m, h2, _⟩ := hw; exact .inr ⟨_, _, .order h a pc k m h2⟩
  | const a i k => obtain ⟨_, m, h2, _⟩ := hw; exact .inr ⟨_, _, .const h a i k m h2⟩
  | size a k => obtain ⟨_, m, h2, _⟩ := hw; exact .inr ⟨_, _, .size h a k m h2⟩

/-- An action changes nothing frozen and nothing owned by others. -/
theorem wp_frame {α : Type} {e : Nat} {F : Addr → Prop} {Q : α → Heap → Prop} {h h' : Heap} {p p' : Prog α}
    (hF : ∀ a, F a → h.get a ≠ none) (ha : Act e h p h' p') (hw : wp e F Q p h) :
    (∀ w, w ≠ e → h' w = h w) ∧ (∀ a, F a → h'.get a = h.get a) ∧
      (∀ a, h.get a ≠ none → h'.get a ≠ none) := by
  cases ha with
  | write a i v hc =>
    obtain ⟨h1, h2, ⟨cs, h3, _⟩, _⟩ := hw
    refine ⟨?_, ?_, ?_⟩
    · intro w hwe
      unfold Heap.setCell
      simp only [h3, Heap.put, h1, hwe, if_false]
    · intro b hb
      rw [get_setCell h3]
      split
      · rename_i hab; subst hab; exact absurd hb h2
      · rfl
    · intro b hb
      rw [get_setCell h3]
      split
      · simp
      · exact hb
  | make cs k =>
    refine ⟨?_, ?_, ?_⟩
    · intro w hwe; simp [Heap.alloc, hwe]
    · intro b hb
      rw [get_alloc]
      split
      · rename_i hab; subst hab; exact absurd (get_fresh h e) (hF _ hb)
      · rfl
    · intro b hb
      rw [get_alloc]
      split
      · simp
      · exact hb
  | read a i k v hc => exact ⟨fun _ _ => rfl, fun _ _ => rfl, fun _ h => h⟩
  | find a key k m hg => exact ⟨fun _ _ => rfl, fun _ _ => rfl, fun _ h => h⟩
  | range a k m hg => exact ⟨fun _ _ => rfl, fun _ _ => rfl, fun _ h => h⟩
  | load x k v hr => exact ⟨fun _ _ => rfl, fun _ _ => rfl, fun _ h => h⟩
  | order a pc k m hg => exact ⟨fun _ _ => rfl, fun _ _ => rfl, fun _ h => h⟩
  | const a i k m hg => exact ⟨fun _ _ => rfl, fun _ _ => rfl, fun _ h => h⟩
  | size a k m hg => exact ⟨fun _ _ => rfl, fun _ _ => rfl, fun _ h => h⟩

end JP.Conc
