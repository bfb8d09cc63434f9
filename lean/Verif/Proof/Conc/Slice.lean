import Verif.Proof.Conc.Mem
/-!
Slices of the model in `Model/Conc.lean`: reading, `append`, and the loops of run.go that append to an
output set.
-/
namespace JP.Conc

/-! ## Results -/

/-- The code did what the model of `Machine.lean` does, with results related by `P`. -/
def Post {α β : Type} (r : Res RErr β) (P : α → β → Heap → Prop) : Res RErr α → Heap → Prop
  | .ok a, h => ∃ b, r = .ok b ∧ P a b h
  | .err e, _ => r = .err e
  | .panic m, _ => r = .panic m
  | .stuck, _ => r = .stuck

theorem wp_bindR {α β : Type} {e : Nat} {F : Addr → Prop} {Q : Res RErr β → Heap → Prop} {p : PR α}
    {f : α → PR β} {h : Heap}
    (hw : wp e F (fun r h => match r with
      | .ok a => wp e F Q (f a) h
      | .err x => Q (.err x) h
      | .panic m => Q (.panic m) h
      | .stuck => Q .stuck h) p h) : wp e F Q (p >>= f : PR β) h := by
  refine wp_bind (Q := Q) p h (wp_mono ?_ p h hw)
  intro r h hr
  cases r <;> exact hr

theorem sim_bind {α β γ δ : Type} {e : Nat} {F : Addr → Prop} {r : Res RErr β} {k : β → Res RErr δ}
    {P : α → β → Heap → Prop} {P' : γ → δ → Heap → Prop} {p : PR α} {f : α → PR γ} {h : Heap}
    (hp : wp e F (Post r P) p h)
    (hf : ∀ a b h', r = .ok b → P a b h' → wp e F (Post (k b) P') (f a) h') :
    wp e F (Post (r >>= k) P') (p >>= f : PR γ) h := by
  apply wp_bindR
  refine wp_mono ?_ p h hp
  intro x h' hx
  cases x with
  | ok a => obtain ⟨b, hb, hP⟩ := hx; have := hf a b h' hb hP; rw [hb]; exact this
  | err x => cases hx; rfl
  | panic m => cases hx; rfl
  | stuck => cases hx; rfl

theorem sim_mono {α β : Type} {e : Nat} {F : Addr → Prop} {r : Res RErr β} {P P' : α → β → Heap → Prop}
    {p : PR α} {h : Heap} (hq : ∀ a b h, P a b h → P' a b h) (hp : wp e F (Post r P) p h) :
    wp e F (Post r P') p h := by
  refine wp_mono ?_ p h hp
  intro x h' hx
  cases x with
  | ok a => obtain ⟨b, hb, hP⟩ := hx; exact ⟨b, hb, hq _ _ _ hP⟩
  | err x => exact hx
  | panic m => exact hx
  | stuck => exact hx

theorem sim_ok {α β : Type} {e : Nat} {F : Addr → Prop} {b : β} {P : α → β → Heap → Prop} {a : α} {h : Heap}
    (hp : P a b h) : wp e F (Post (.ok b) P) (PR.ok a) h := ⟨b, rfl, hp⟩

/-- Code that cannot fail. -/
def Ok {α : Type} (P : α → Heap → Prop) : Res RErr α → Heap → Prop
  | .ok a, h => P a h
  | _, _ => False

theorem wp_seq {α β : Type} {e : Nat} {F : Addr → Prop} {P : α → Heap → Prop} {Q : Res RErr β → Heap → Prop}
    {p : PR α} {f : α → PR β} {h : Heap} (hp : wp e F (Ok P) p h)
    (hf : ∀ a h', P a h' → wp e F Q (f a) h') : wp e F Q (p >>= f : PR β) h := by
  apply wp_bindR
  refine wp_mono ?_ p h hp
  intro x h' hx
  cases x with
  | ok a => exact hf a h' hx
  | err x => exact hx.elim
  | panic m => exact hx.elim
  | stuck => exact hx.elim

section
variable {α : Type} {e : Nat} {F : Addr → Prop} {Q : Res RErr α → Heap → Prop} {h : Heap}

theorem wp_read {a : Addr} {i : Nat} {f : HV → PR α} {v : HV} (ha : Mine e F a) (hc : h.cell a i = some v)
    (hk : wp e F Q (f v) h) : wp e F Q (PR.read a i >>= f : PR α) h := ⟨ha, v, hc, hk⟩

theorem wp_write {a : Addr} {i : Nat} {v : HV} {f : Unit → PR α} {cs : List HV} (ha : a.owner = e)
    (hn : ¬F a) (hg : h.get a = some (.cells cs)) (hi : i < cs.length)
    (hk : wp e F Q (f ()) (h.setCell a i v)) : wp e F Q (PR.write a i v >>= f : PR α) h :=
  ⟨ha, hn, ⟨cs, hg, hi⟩, hk⟩

theorem wp_make {cs : List HV} {f : Addr → PR α} (hk : wp e F Q (f (h.fresh e)) (h.alloc e (.cells cs))) :
    wp e F Q (PR.make cs >>= f : PR α) h := hk

theorem wp_find {a : Addr} {key : Bytes} {f : Option HV → PR α} {m : List (Bytes × HV)} (ha : Mine e F a)
    (hg : h.get a = some (.members m)) (hk : wp e F Q (f (findMember m key)) h) :
    wp e F Q (PR.find a key >>= f : PR α) h := ⟨ha, m, hg, hk⟩

theorem wp_range {a : Addr} {f : List (Bytes × HV) → PR α} {m : List (Bytes × HV)} (ha : Mine e F a)
    (hg : h.get a = some (.members m)) (hk : wp e F Q (f m) h) :
    wp e F Q (PR.range a >>= f : PR α) h := ⟨ha, m, hg, hk⟩

theorem wp_load {x : HV} {f : V → PR α} {v : V} (hr : Rep F h x v) (hk : wp e F Q (f v) h) :
    wp e F Q (PR.load x >>= f : PR α) h := ⟨v, hr.mono (fun _ h => .inr h) (fun _ _ => rfl), hk⟩

theorem wp_order {a : Addr} {pc : Nat} {f : Option Order → PR α} {p : Program} (ha : Mine e F a)
    (hg : h.get a = some (.prog p)) (hk : wp e F Q (f p.orders[pc]?) h) :
    wp e F Q (PR.order a pc >>= f : PR α) h := ⟨ha, p, hg, hk⟩

theorem wp_const {a : Addr} {i : Nat} {f : Option PVal → PR α} {p : Program} (ha : Mine e F a)
    (hg : h.get a = some (.prog p)) (hk : wp e F Q (f p.vals[i]?) h) :
    wp e F Q (PR.const a i >>= f : PR α) h := ⟨ha, p, hg, hk⟩

theorem wp_size {a : Addr} {f : Nat → PR α} {p : Program} (ha : Mine e F a)
    (hg : h.get a = some (.prog p)) (hk : wp e F Q (f p.orders.length) h) :
    wp e F Q (PR.size a >>= f : PR α) h := ⟨ha, p, hg, hk⟩

theorem wp_okBind {β : Type} {a : β} {f : β → PR α} (hk : wp e F Q (f a) h) :
    wp e F Q (PR.ok a >>= f : PR α) h := hk

end

/-! ## Growing heaps -/

/-- Everything frozen exists. -/
def FValid (F : Addr → Prop) (h : Heap) : Prop := ∀ a, F a → h.get a ≠ none

/-- From `h0` to `h`, evaluation `e` has changed at most the objects `X` and made new ones. -/
structure Ext (e : Nat) (X : Addr → Prop) (h0 h : Heap) : Prop where
  other : ∀ w, w ≠ e → h w = h0 w
  kept : ∀ a, h0.get a ≠ none → ¬X a → h.get a = h0.get a
  grows : ∀ a, h0.get a ≠ none → h.get a ≠ none

theorem Ext.refl (e : Nat) (X : Addr → Prop) (h : Heap) : Ext e X h h :=
  ⟨fun _ _ => rfl, fun _ _ _ => rfl, fun _ h => h⟩

theorem Ext.trans {e : Nat} {X : Addr → Prop} {a b c : Heap} (h1 : Ext e X a b) (h2 : Ext e X b c) :
    Ext e X a c where
  other w hw := by rw [h2.other w hw, h1.other w hw]
  kept x hx hn := by rw [h2.kept x (h1.grows x hx) hn, h1.kept x hx hn]
  grows x hx := h2.grows x (h1.grows x hx)

theorem Ext.mono {e : Nat} {X Y : Addr → Prop} {a b : Heap} (h1 : Ext e X a b) (h : ∀ x, X x → Y x) :
    Ext e Y a b where
  other := h1.other
  kept x hx hn := h1.kept x hx (fun h' => hn (h x h'))
  grows := h1.grows

/-- What was changed is as good as new if it was new. -/
theorem Ext.trans' {e : Nat} {X Y : Addr → Prop} {a b c : Heap} (h1 : Ext e X a b) (h2 : Ext e Y b c)
    (h : ∀ x, Y x → X x ∨ a.get x = none) : Ext e X a c where
  other w hw := by rw [h2.other w hw, h1.other w hw]
  kept x hx hn := by
    rw [h2.kept x (h1.grows x hx) (fun hy => by rcases h x hy with h' | h'; exact hn h'; exact hx h'),
      h1.kept x hx hn]
  grows x hx := h2.grows x (h1.grows x hx)

theorem ext_alloc (e : Nat) (X : Addr → Prop) (h : Heap) (o : Obj) : Ext e X h (h.alloc e o) where
  other w hw := by simp [Heap.alloc, hw]
  kept a ha _ := by
    rw [get_alloc]
    split
    · rename_i hx; subst hx; exact absurd (get_fresh h e) ha
    · rfl
  grows a ha := by
    rw [get_alloc]
    split
    · simp
    · exact ha

theorem ext_setCell {e : Nat} {X : Addr → Prop} {h : Heap} {a : Addr} {cs : List HV}
    (hg : h.get a = some (.cells cs)) (ha : a.owner = e) (hx : X a) (i : Nat) (v : HV) :
    Ext e X h (h.setCell a i v) where
  other w hw := by
    unfold Heap.setCell
    simp only [hg, Heap.put, ha, hw, if_false]
  kept b hb hn := by
    rw [get_setCell hg]
    split
    · rename_i hab; subst hab; exact absurd hx hn
    · rfl
  grows b hb := by
    rw [get_setCell hg]
    split
    · simp
    · exact hb

theorem Ext.frozen {e : Nat} {X F : Addr → Prop} {h0 h : Heap} (hE : Ext e X h0 h) (hF : FValid F h0)
    (hX : ∀ a, X a → ¬F a) (a : Addr) (ha : F a) : h.get a = h0.get a :=
  hE.kept a (hF a ha) (fun hx => hX a hx ha)

theorem Ext.valid {e : Nat} {X F : Addr → Prop} {h0 h : Heap} (hE : Ext e X h0 h) (hF : FValid F h0) :
    FValid F h := fun a ha => hE.grows a (hF a ha)

theorem Rep.ext {e : Nat} {X F : Addr → Prop} {h0 h : Heap} (hE : Ext e X h0 h) (hF : FValid F h0)
    (hX : ∀ a, X a → ¬F a) {x : HV} {v : V} (hr : Rep F h0 x v) : Rep F h x v :=
  hr.mono (fun _ h => h) (hE.frozen hF hX)

theorem RepL.ext {e : Nat} {X F : Addr → Prop} {h0 h : Heap} (hE : Ext e X h0 h) (hF : FValid F h0)
    (hX : ∀ a, X a → ¬F a) {x : List HV} {v : List V} (hr : RepL F h0 x v) : RepL F h x v :=
  hr.mono (fun _ h => h) (hE.frozen hF hX)

/-! ## Reading and clearing -/

theorem take_drop_succ {α : Type} {cs : List α} {i n : Nat} {v : α} (hv : cs[i]? = some v) :
    (cs.drop i).take (n + 1) = v :: (cs.drop (i + 1)).take n := by
  rw [List.getElem?_eq_some_iff] at hv
  obtain ⟨hlt, hv⟩ := hv
  rw [List.drop_eq_getElem_cons hlt, hv]
  rfl

theorem wp_readFrom {e : Nat} {F : Addr → Prop} {h : Heap} {r : SRef} {cs : List HV} (ha : Mine e F r.arr)
    (hg : h.get r.arr = some (.cells cs)) : ∀ (n i : Nat) (_ : r.off + i + n ≤ cs.length),
    wp e F (Ok fun xs h' => h' = h ∧ xs = (cs.drop (r.off + i)).take n) (readFrom r n i) h
  | 0, i, _ => ⟨rfl, by simp⟩
  | n + 1, i, hl => by
    have hlt : r.off + i < cs.length := by omega
    have hc : cs[r.off + i]? = some cs[r.off + i] := List.getElem?_eq_getElem hlt
    refine wp_read ha (by rw [cell_of hg]; exact hc) ?_
    refine wp_seq (wp_readFrom ha hg n (i + 1) (by omega)) ?_
    rintro xs h' ⟨rfl, rfl⟩
    exact ⟨rfl, by rw [take_drop_succ hc]; rfl⟩

theorem wp_clearFrom {e : Nat} {F : Addr → Prop} {r : SRef} (ha : r.arr.owner = e) (hn : ¬F r.arr) :
    ∀ (n i : Nat) (h : Heap) (cs : List HV) (_ : h.get r.arr = some (.cells cs)) (_ : r.off + i + n ≤ cs.length),
    wp e F (Ok fun _ h' => Ext e (· = r.arr) h h' ∧ ∃ cs', h'.get r.arr = some (.cells cs') ∧
      cs'.length = cs.length ∧ cs'.take (r.off + i) = cs.take (r.off + i)) (clearFrom r n i) h
  | 0, i, h, cs, hg, _ => ⟨Ext.refl _ _ _, cs, hg, rfl, rfl⟩
  | n + 1, i, h, cs, hg, hl => by
    refine wp_write ha hn hg (by omega) ?_
    have hg' : (h.setCell r.arr (r.off + i) .null).get r.arr = some (.cells (cs.set (r.off + i) .null)) := by
      rw [get_setCell hg]; simp
    refine wp_mono ?_ _ _ (wp_clearFrom ha hn n (i + 1) _ _ hg' (by simp; omega))
    intro x h' hx
    cases x with
    | ok u =>
      obtain ⟨h1, cs', h2, h3, h4⟩ := hx
      refine ⟨(ext_setCell (X := (· = r.arr)) hg ha rfl _ _).trans h1, cs', h2, by simpa using h3, ?_⟩
      have := congrArg (List.take (r.off + i)) h4
      rw [List.take_take, List.take_take] at this
      have e1 : min (r.off + i) (r.off + (i + 1)) = r.off + i := by omega
      rw [e1] at this
      rw [this, List.take_set]
      rw [List.set_eq_of_length_le (by simp; omega)]
    | err x => exact hx.elim
    | panic m => exact hx.elim
    | stuck => exact hx.elim

/-! ## Output sets -/

/-- The slice is the evaluation's own, not frozen, and starts its array. -/
structure Own (e : Nat) (F : Addr → Prop) (h : Heap) (r : SRef) (cs : List HV) : Prop where
  owner : r.arr.owner = e
  free : ¬F r.arr
  get : h.get r.arr = some (.cells cs)
  off : r.off = 0
  cap : cs.length = r.cap
  len : r.len ≤ r.cap

/-- The slice of memory stands for the slice of `Machine.lean`. -/
def OutRep (e : Nat) (F : Addr → Prop) (h : Heap) : Option SRef → GoSlice → Prop
  | none, none => True
  | some r, some vs => ∃ cs, Own e F h r cs ∧ RepL F h (cs.take r.len) vs
  | _, _ => False

/-- Is the array behind the slice. -/
def ArrOf (o : Option SRef) (a : Addr) : Prop := ∃ r, o = some r ∧ a = r.arr

theorem OutRep.free {e : Nat} {F : Addr → Prop} {h : Heap} {o : Option SRef} {g : GoSlice}
    (ho : OutRep e F h o g) (a : Addr) (ha : ArrOf o a) : ¬F a := by
  obtain ⟨r, rfl, rfl⟩ := ha
  cases g with
  | none => exact ho.elim
  | some vs => obtain ⟨cs, h1, _⟩ := ho; exact h1.free

theorem OutRep.elems {e : Nat} {F : Addr → Prop} {h : Heap} {r : SRef} {g : GoSlice}
    (ho : OutRep e F h (some r) g) : ∃ cs, Own e F h r cs ∧ RepL F h (cs.take r.len) g.elems := by
  cases g with
  | none => exact ho.elim
  | some vs => exact ho

theorem OutRep.len {e : Nat} {F : Addr → Prop} {h : Heap} {o : Option SRef} {g : GoSlice}
    (ho : OutRep e F h o g) : lenOf o = g.elems.length := by
  cases o with
  | none => cases g with
    | none => rfl
    | some vs => exact ho.elim
  | some r =>
    obtain ⟨cs, h1, h2⟩ := ho.elems
    rw [← h2.length]
    have h3 := h1.cap; have h4 := h1.len
    simp only [lenOf, List.length_take]; omega

/-- Unaffected by what happens to other arrays. -/
theorem OutRep.ext {e : Nat} {X F : Addr → Prop} {h0 h : Heap} (hE : Ext e X h0 h) (hF : FValid F h0)
    (hX : ∀ a, X a → ¬F a) {o : Option SRef} {g : GoSlice} (ho : OutRep e F h0 o g)
    (hne : ∀ a, ArrOf o a → ¬X a) : OutRep e F h o g := by
  cases o with
  | none => cases g with
    | none => trivial
    | some vs => exact ho.elim
  | some r => cases g with
    | none => exact ho.elim
    | some vs =>
      obtain ⟨cs, h1, h2⟩ := ho
      refine ⟨cs, { h1 with get := ?_ }, h2.ext hE hF hX⟩
      rw [hE.kept r.arr (by rw [h1.get]; simp) (hne _ ⟨r, rfl, rfl⟩), h1.get]

/-- Freezing other objects does not matter. -/
theorem OutRep.freeze {e : Nat} {F F' : Addr → Prop} {h : Heap} (hf : ∀ a, F a → F' a)
    {o : Option SRef} {g : GoSlice} (ho : OutRep e F h o g) (hne : ∀ a, ArrOf o a → ¬F' a) :
    OutRep e F' h o g := by
  cases o with
  | none => cases g with
    | none => trivial
    | some vs => exact ho.elim
  | some r => cases g with
    | none => exact ho.elim
    | some vs =>
      obtain ⟨cs, h1, h2⟩ := ho
      exact ⟨cs, { h1 with free := hne _ ⟨r, rfl, rfl⟩ }, h2.mono hf (fun _ _ => rfl)⟩

theorem take_set_succ {cs : List HV} {n : Nat} {v : HV} (hn : n < cs.length) :
    (cs.set n v).take (n + 1) = cs.take n ++ [v] := by
  rw [List.take_add_one]
  rw [List.take_set, List.set_eq_of_length_le (by simp; omega)]
  simp [hn]

theorem wp_append {e : Nat} {F : Addr → Prop} {h : Heap} {grow : Nat → Nat} {o : Option SRef} {g : GoSlice}
    {v : HV} {x : V} (hF : FValid F h) (ho : OutRep e F h o g) (hv : Rep F h v x) :
    wp e F (Ok fun r h' => Ext e (ArrOf o) h h' ∧ OutRep e F h' (some r) (g.append x) ∧
      (ArrOf o r.arr ∨ h.get r.arr = none)) (append grow o v) h := by
  cases o with
  | none =>
    cases g with
    | some vs => exact ho.elim
    | none =>
      refine wp_make ?_
      have hE := ext_alloc e (ArrOf none) h (.cells (v :: List.replicate (grow 0) .null))
      have hX : ∀ a, ArrOf none a → ¬F a := by rintro a ⟨r, h1, _⟩; cases h1
      refine ⟨hE, ⟨v :: List.replicate (grow 0) .null, ⟨rfl, ?_, by rw [get_alloc]; simp, rfl, by simp; omega,
        by simp⟩, ?_⟩, .inr (get_fresh h e)⟩
      · intro hf; exact hF _ hf (get_fresh h e)
      · simpa [GoSlice.elems] using RepL.cons _ _ _ _ (hv.ext hE hF hX) RepL.nil
  | some r =>
    cases g with
    | none => exact ho.elim
    | some vs =>
      obtain ⟨cs, h1, h2⟩ := ho
      have hX : ∀ a, ArrOf (some r) a → ¬F a := by rintro a ⟨r', h3, rfl⟩; cases h3; exact h1.free
      unfold append
      by_cases hlt : r.len < r.cap
      · simp only [hlt, if_true]
        have hlt' : r.off + r.len < cs.length := by rw [h1.off, h1.cap]; omega
        refine wp_write h1.owner h1.free h1.get hlt' ?_
        have hE := ext_setCell (e := e) (X := ArrOf (some r)) h1.get h1.owner ⟨r, rfl, rfl⟩ (r.off + r.len) v
        refine ⟨hE, ⟨cs.set (r.off + r.len) v, ⟨h1.owner, h1.free, by rw [get_setCell h1.get]; simp, h1.off,
          by simpa using h1.cap, hlt⟩, ?_⟩, .inl ⟨r, rfl, rfl⟩⟩
        have e1 : r.off + r.len = r.len := by rw [h1.off]; omega
        simp only [e1] at hE ⊢
        rw [take_set_succ (by omega)]
        exact (h2.ext hE hF hX).snoc (hv.ext hE hF hX)
      · simp only [hlt, if_false]
        have hcap := h1.cap
        have hlen := h1.len
        have hoff := h1.off
        refine wp_seq (wp_readFrom (.inl h1.owner) h1.get r.len 0 (by rw [h1.off]; omega)) ?_
        rintro old h' ⟨rfl, rfl⟩
        refine wp_make ?_
        simp only [h1.off, Nat.add_zero, List.drop_zero]
        have hE := ext_alloc e (ArrOf (some r)) h'
          (.cells (cs.take r.len ++ v :: List.replicate (grow r.len) .null))
        have hl : (cs.take r.len).length = r.len := by simp; omega
        refine ⟨hE, ⟨cs.take r.len ++ v :: List.replicate (grow r.len) .null, ⟨rfl, ?_, by rw [get_alloc]; simp,
          rfl, by simp; omega, by simp⟩, ?_⟩, .inr (get_fresh h' e)⟩
        · intro hf; exact hF _ hf (get_fresh h' e)
        · have : (cs.take r.len ++ v :: List.replicate (grow r.len) HV.null).take (r.len + 1)
              = cs.take r.len ++ [v] := by
            rw [List.take_append, hl]
            rw [List.take_of_length_le (by omega)]
            simp
          simp only [this]
          exact (h2.ext hE hF hX).snoc (hv.ext hE hF hX)

theorem wp_emptySlice {e : Nat} {F : Addr → Prop} {h : Heap} (hF : FValid F h) :
    wp e F (Ok fun r h' => Ext e (fun _ => False) h h' ∧ OutRep e F h' (some r) (some []) ∧
      h.get r.arr = none) emptySlice h := by
  refine wp_make ?_
  refine ⟨ext_alloc _ _ _ _, ⟨[], ⟨rfl, ?_, by rw [get_alloc]; simp, rfl, rfl, Nat.le_refl _⟩, .nil⟩, get_fresh h e⟩
  intro hf; exact hF _ hf (get_fresh h e)

/-! ## Loops that append -/

/-- Since `h0`, the code has changed at most the objects `X` and made new ones, and `o`, which is
among them, stands for `g`. -/
structure Accum (e : Nat) (F X : Addr → Prop) (h0 h : Heap) (o : Option SRef) (g : GoSlice) : Prop where
  ext : Ext e X h0 h
  rep : OutRep e F h o g
  new : ∀ a, ArrOf o a → X a ∨ h0.get a = none

section
variable {e : Nat} {F X : Addr → Prop} {h0 : Heap} {grow : Nat → Nat} (hF : FValid F h0)
  (hX : ∀ a, X a → ¬F a)
include hF hX

theorem acc_append {h : Heap} {o : Option SRef} {g : GoSlice} {v : HV} {x : V}
    (ha : Accum e F X h0 h o g) (hv : Rep F h0 v x) :
    wp e F (Ok fun r h' => Accum e F X h0 h' (some r) (g.append x)) (append grow o v) h := by
  refine wp_mono ?_ _ _ (wp_append (ha.ext.valid hF) ha.rep (hv.ext ha.ext hF hX))
  intro r h' hr
  cases r with
  | ok r =>
    obtain ⟨h1, h2, h3⟩ := hr
    refine ⟨ha.ext.trans' h1 ha.new, h2, ?_⟩
    rintro a ⟨r', hr', rfl⟩
    cases hr'
    rcases h3 with h3 | h3
    · exact ha.new _ h3
    · right
      cases hc : h0.get r.arr with
      | none => rfl
      | some o' => exact absurd h3 (ha.ext.grows _ (by rw [hc]; simp))
  | err x => exact hr
  | panic m => exact hr
  | stuck => exact hr

omit hF hX in
theorem appendAll_cons (g : GoSlice) (v : V) (vs : List V) :
    g.appendAll (v :: vs) = (g.append v).appendAll vs := by
  cases vs with
  | nil => rfl
  | cons w ws => simp [GoSlice.appendAll, GoSlice.append, GoSlice.elems]

theorem acc_appendVals : ∀ (xs : List HV) (vs : List V) (_ : RepL F h0 xs vs) (h : Heap) (o : Option SRef)
    (g : GoSlice) (_ : Accum e F X h0 h o g),
    wp e F (Ok fun o' h' => Accum e F X h0 h' o' (g.appendAll vs)) (appendVals grow xs o) h
  | _, _, .nil, h, o, g, ha => ha
  | _, _, .cons x v xs vs h1 h2, h, o, g, ha => by
    rw [appendAll_cons]
    exact wp_seq (acc_append hF hX ha h1) (fun r h' ha' => acc_appendVals xs vs h2 h' (some r) _ ha')

/-- A frozen array with these elements, or an own one that is not touched meanwhile. -/
def Src (e : Nat) (F X : Addr → Prop) (h0 : Heap) (r : SRef) (vs : List V) : Prop :=
  Mine e F r.arr ∧ ¬X r.arr ∧ ∃ cs, h0.get r.arr = some (.cells cs) ∧ r.off + r.len ≤ cs.length ∧
    RepL F h0 ((cs.drop r.off).take r.len) vs

omit hF in
theorem src_of_rep {r : SRef} {vs : List V} (hr : Rep F h0 (.arr r) (.arr vs)) : Src e F X h0 r vs := by
  cases hr with
  | arr _ cs _ h1 h2 h3 h4 => exact ⟨.inr h1, fun hx => hX _ hx h1, cs, h2, h3, h4⟩

omit hF hX in
theorem Src.len {r : SRef} {vs : List V} (hs : Src e F X h0 r vs) : r.len = vs.length := by
  obtain ⟨_, _, cs, _, h2, h3⟩ := hs
  rw [← h3.length]; simp; omega

omit hF hX in
theorem Src.cell {r : SRef} {vs : List V} (hs : Src e F X h0 r vs) {h : Heap} (hE : Ext e X h0 h) {i : Nat}
    {v : V} (hi : vs[i]? = some v) : ∃ x, h.cell r.arr (r.off + i) = some x ∧ Rep F h0 x v := by
  obtain ⟨_, hn, cs, h1, h2, h3⟩ := hs
  obtain ⟨x, hx, hr⟩ := h3.get hi
  refine ⟨x, ?_, hr⟩
  have : h.get r.arr = some (.cells cs) := by rw [hE.kept _ (by rw [h1]; simp) hn]; exact h1
  rw [cell_of this]
  rw [List.getElem?_take] at hx
  split at hx
  · rw [List.getElem?_drop] at hx; exact hx
  · cases hx

theorem acc_appendElems {r : SRef} {vs : List V} (hs : Src e F X h0 r vs) : ∀ (n i : Nat)
    (_ : i + n = vs.length) (h : Heap) (o : Option SRef) (g : GoSlice) (_ : Accum e F X h0 h o g),
    wp e F (Ok fun o' h' => Accum e F X h0 h' o' (g.appendAll (vs.drop i))) (appendElems grow r n i o) h
  | 0, i, hi, h, o, g, ha => by
    have : vs.drop i = [] := by simp; omega
    rw [this]; exact ha
  | n + 1, i, hi, h, o, g, ha => by
    have hlt : i < vs.length := by omega
    obtain ⟨x, hx, hr⟩ := hs.cell ha.ext (List.getElem?_eq_getElem hlt)
    refine wp_read hs.1 hx ?_
    rw [List.drop_eq_getElem_cons hlt, appendAll_cons]
    exact wp_seq (acc_append hF hX ha hr)
      (fun r' h' ha' => acc_appendElems hs n (i + 1) (by omega) h' (some r') _ ha')

theorem acc_valsWild {h : Heap} {o : Option SRef} {g : GoSlice} {ord : Ord} {loc : List Nat} {src : HV}
    {v : V} (ha : Accum e F X h0 h o g) (hs : Rep F h0 src v) :
    wp e F (Ok fun o' h' => Accum e F X h0 h' o' (g.appendAll (children ord loc v)))
      (valsWild grow ord loc o src) h := by
  cases hs with
  | atom v hv =>
    have : children ord loc v = [] := by cases v <;> first | rfl | (simp [isStructure] at hv)
    rw [this]; exact ha
  | arr r cs vs h1 h2 h3 h4 =>
    have hsrc : Src e F X h0 r vs := src_of_rep hX (.arr r cs vs h1 h2 h3 h4)
    simpa [valsWild, children] using acc_appendElems hF hX (grow := grow) hsrc r.len 0 (by rw [hsrc.len]; omega) h o g ha
  | obj a m kvs h1 h2 h3 =>
    refine wp_range (m := m) (.inr h1) (by rw [ha.ext.frozen hF hX a h1]; exact h2) ?_
    rw [children, ← h3.length]
    exact acc_appendVals hF hX _ _ (h3.snd.permute _) h o g ha

end

end JP.Conc
