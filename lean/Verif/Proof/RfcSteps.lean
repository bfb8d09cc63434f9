import Verif.Proof.Rfc
import Verif.Proof.Cut
import Verif.Props.Steps
import Verif.Props.Core
import Verif.Props.Cut
import Verif.Props.Grammar
/-! From the queries of RFC 9535 to the steps of paths. -/
namespace JP.Rfc
open Spec

variable {env : Env} {oracle : Oracle}

/-- The steps for a segment, as it may be written. -/
inductive StepFor : Segment → Step → Prop
  | wild : StepFor (.child [.wild]) ⟨.wild, []⟩
  | nestWild : StepFor (.descend [.wild]) ⟨.nestWild, []⟩
  | member (s) : StepFor (.child [.name s]) ⟨.member, [.name s]⟩
  | nestMember (s) : StepFor (.descend [.name s]) ⟨.nestMember, [.name s]⟩
  | select (s) : s ≠ .wild → StepFor (.child [s]) ⟨.select, [valOf s]⟩
  | nestSelect (s) : s ≠ .wild → StepFor (.descend [s]) ⟨.nestSelect, [valOf s]⟩
  | union (sels) : (∀ s ∈ sels, s ≠ .wild) → StepFor (.child sels) ⟨.union, sels.map valOf⟩
  | nestUnion (sels) : (∀ s ∈ sels, s ≠ .wild) → StepFor (.descend sels) ⟨.nestUnion, sels.map valOf⟩

/-! ### Texts -/

theorem boundText_write {a : Option Int} (h : ∀ i ∈ a, InRange i) : writeBound ((a.map Int64.ofInt).map .int) = boundText a := by
  cases a with
  | none => rfl
  | some i => simp only [Option.map_some, writeBound, boundText]; rw [toInt_ofInt (h i rfl)]

theorem selectorText_write {s : Selector} (h : s.Valid) (hn : s ≠ .wild) : writeVal (valOf s) = selectorText s := by
  cases s with
  | name s => rfl
  | wild => exact absurd rfl hn
  | index i => simp only [valOf, writeVal, selectorText]; rw [toInt_ofInt h]
  | slice a b c =>
    simp only [valOf, writeVal]
    rw [boundText_write h.1, boundText_write h.2.1]
    cases c with
    | none => simp only [Option.map_none, selectorText, List.append_nil]
    | some c => simp only [Option.map_some, selectorText, writeBound]; rw [toInt_ofInt (h.2.2 c rfl)]

theorem valOf_tree {s : Selector} (h : s.Valid) : TreeElem env true (valOf s) := by
  have hi : ∀ i, InRange i → TreeInt true (Int64.ofInt i) := fun i hi _ => by rw [toInt_ofInt hi]; have := hi.1; omega
  have hb : ∀ a : Option Int, (∀ i ∈ a, InRange i) → ∀ x ∈ (a.map Int64.ofInt).map Bound.int, TreeBound env true x := by
    intro a ha x hx
    cases a with
    | none => cases hx
    | some i => cases hx; exact .int _ (hi _ (ha i rfl))
  cases s with
  | name s => exact .str _
  | wild => exact .str _
  | index i => exact .int _ (hi i h)
  | slice a b c => exact .slice _ _ _ (hb _ h.1) (hb _ h.2.1) (hb _ h.2.2)

theorem map_text {sels : List Selector} (h : ∀ s ∈ sels, s.Valid) (hn : ∀ s ∈ sels, s ≠ .wild) :
    (sels.map valOf).map writeVal = sels.map selectorText := by
  rw [List.map_map]
  exact List.map_congr_left fun s hs => selectorText_write (h s hs) (hn s hs)

theorem parse_step {s : Step} {t : Bytes} (ht : TreeStep env true s) (hw : writeStep s = t) : parsePath env (c! '$' :: t) = .ok [s] := by
  have := C30_write_partial env [s] (fun s' hs => by rw [List.mem_singleton.1 hs]; exact ht)
  rw [← this]
  simp [writePath, hw]

theorem segment_parse {seg : Segment} {t : Bytes} (h : SegmentText seg t) (hne : seg.sels ≠ []) (hv : ∀ s ∈ seg.sels, s.Valid) (hl : seg.Lone) :
    ∃ st, StepFor seg st ∧ parsePath env (c! '$' :: t) = .ok [st] := by
  cases h with
  | child sels =>
    by_cases hw : Selector.wild ∈ sels
    · have : sels = [.wild] := hl hw
      subst this
      exact ⟨_, .wild, parse_step .wild rfl⟩
    · have hn : ∀ s ∈ sels, s ≠ .wild := fun s hs he => hw (he ▸ hs)
      match sels, hne with
      | [s], _ =>
        refine ⟨_, .select s (hn s (by simp)), parse_step (.select _ (.elem _ (valOf_tree (hv s (by simp [Segment.sels]))))) ?_⟩
        simp only [writeStep, List.map_cons, List.map_nil, commas]
        rw [selectorText_write (hv s (by simp [Segment.sels])) (hn s (by simp))]
      | s :: s' :: r, _ =>
        refine ⟨_, .union _ hn, parse_step (.union _ (by simp) fun v hv' => ?_) ?_⟩
        · obtain ⟨s, hs, rfl⟩ := List.mem_map.1 hv'
          exact valOf_tree (hv s hs)
        · rw [← map_text (sels := s :: s' :: r) hv hn]
          rfl
  | descend sels =>
    by_cases hw : Selector.wild ∈ sels
    · have : sels = [.wild] := hl hw
      subst this
      exact ⟨_, .nestWild, parse_step .nestWild rfl⟩
    · have hn : ∀ s ∈ sels, s ≠ .wild := fun s hs he => hw (he ▸ hs)
      match sels, hne with
      | [s], _ =>
        refine ⟨_, .nestSelect s (hn s (by simp)), parse_step (.nestSelect _ (.elem _ (valOf_tree (hv s (by simp [Segment.sels]))))) ?_⟩
        simp only [writeStep, List.map_cons, List.map_nil, commas]
        rw [selectorText_write (hv s (by simp [Segment.sels])) (hn s (by simp))]
      | s :: s' :: r, _ =>
        refine ⟨_, .nestUnion _ hn, parse_step (.nestUnion _ (by simp) fun v hv' => ?_) ?_⟩
        · obtain ⟨s, hs, rfl⟩ := List.mem_map.1 hv'
          exact valOf_tree (hv s hs)
        · rw [← map_text (sels := s :: s' :: r) hv hn]
          rfl
  | dotName s hi =>
    obtain ⟨c, w, rfl, h1, h2⟩ := hi
    exact ⟨_, .member _, parse_step (.member _ (.name _ ⟨c, w, rfl, h1, fun x hx => (h2 x hx).elim .inl (.inr ∘ .inl)⟩)) rfl⟩
  | dotsName s hi =>
    obtain ⟨c, w, rfl, h1, h2⟩ := hi
    exact ⟨_, .nestMember _, parse_step (.nestMember _ (.name _ ⟨c, w, rfl, h1, fun x hx => (h2 x hx).elim .inl (.inr ∘ .inl)⟩)) rfl⟩
  | dotWild => exact ⟨_, .wild, rfl⟩
  | dotsWild => exact ⟨_, .nestWild, rfl⟩

theorem query_parse {q : Query} {text : Bytes} (h : QueryText q text) (hv : q.Valid) (hl : ∀ seg ∈ q, seg.Lone) :
    ∃ ss, All2 StepFor q ss ∧ parsePath env text = .ok ss := by
  obtain ⟨ts, ht, rfl⟩ := h
  have : ∃ ss, All2 StepFor q ss ∧ All2 (fun piece s => parsePath env (c! '$' :: piece) = .ok [s]) ts ss := by
    induction ht with
    | nil => exact ⟨[], .nil, .nil⟩
    | cons h _ ih =>
      obtain ⟨ss, h1, h2⟩ := ih (fun seg hs => hv seg (by simp [hs])) (fun seg hs => hl seg (by simp [hs]))
      obtain ⟨st, h3, h4⟩ := segment_parse (env := env) h (hv _ (by simp)).1 (hv _ (by simp)).2 (hl _ (by simp))
      exact ⟨st :: ss, .cons h3 h1, .cons h4 h2⟩
  obtain ⟨ss, h1, h2⟩ := this
  exact ⟨ss, h1, (C93_pieces env _ _).2 ⟨b! "$", ts, rfl, rfl, h2⟩⟩

/-! ### Evaluation -/

theorem desc_at {root v : V} (h : Desc root v) : ∃ p, At root p v := by
  induction h with
  | root => exact ⟨[], .here _⟩
  | elem _ hx ih =>
    obtain ⟨p, hp⟩ := ih
    obtain ⟨i, hi⟩ := List.getElem?_of_mem hx
    exact ⟨_, hp.trans (.elem hi (.here _))⟩
  | member _ hx ih =>
    obtain ⟨p, hp⟩ := ih
    exact ⟨_, hp.trans (.member hx (.here _))⟩

theorem stepFor_noFilter {seg : Segment} {s : Step} (h : StepFor seg s) : (s.op == .filter || s.op == .nestFilter) = false := by
  cases h <;> rfl

theorem all2_flatMap {R : V → List V → Prop} {f : V → List V} : ∀ (vs : List V), (∀ v ∈ vs, R v (f v)) → ∃ ls, All2 R vs ls ∧ vs.flatMap f = ls.flatten
  | [], _ => ⟨[], .nil, rfl⟩
  | v :: r, h => by
    obtain ⟨ls, h1, h2⟩ := all2_flatMap r (fun w hw => h w (by simp [hw]))
    exact ⟨f v :: ls, .cons (h v (by simp)) h1, by rw [List.flatMap_cons, h2]; rfl⟩

theorem all2_children {vs : List V} {ls : List (List V)} (h : All2 Children vs ls) : All2 (Applies (.child [.wild])) vs ls := by
  induction h with
  | nil => exact .nil
  | cons h _ ih => exact .cons (.child ⟨[_], .cons (.wild h) .nil, by simp⟩) ih

/-- Nothing is selected from a value that is not a structure. -/
theorem bracketed_atom {sels : List Selector} {v : V} (h : isStructure v = false) : Bracketed sels v [] := by
  have ha : ∀ xs, v ≠ .arr xs := by rintro xs rfl; cases h
  have ho : ∀ kvs, v ≠ .obj kvs := by rintro kvs rfl; cases h
  refine ⟨sels.map fun _ => [], ?_, by induction sels <;> simp_all⟩
  induction sels with
  | nil => exact .nil
  | cons s r ih =>
    refine .cons ?_ ih
    cases s
    · exact .noObject ho
    · exact .wild (.other v h)
    · exact .noArray ha
    · exact .noSlice ha

/-- Selecting from the structures is selecting from all nodes. -/
theorem bracketed_structures {sels : List Selector} : ∀ {ds : List (Place × V)} {ls : List (List V)},
    All2 (Bracketed sels) (structures ds) ls → ∃ ls', All2 (fun d l => Bracketed sels d.2 l) ds ls' ∧ ls'.flatten = ls.flatten
  | [], ls, h => by cases h; exact ⟨[], .nil, rfl⟩
  | (p, v) :: ds, ls, h => by
    unfold structures at h
    rw [List.map_cons, List.filter_cons] at h
    by_cases hs : isStructure v = true
    · rw [if_pos hs] at h
      cases h with
      | cons h1 h2 =>
        obtain ⟨ls', h3, h4⟩ := bracketed_structures h2
        exact ⟨_ :: ls', .cons h1 h3, by rw [List.flatten_cons, List.flatten_cons, h4]⟩
    · rw [if_neg hs] at h
      obtain ⟨ls', h3, h4⟩ := bracketed_structures h
      exact ⟨[] :: ls', .cons (bracketed_atom (by simpa using hs)) h3, by rw [List.flatten_cons, h4]; rfl⟩

/-- A walk over some values, taken apart. -/
theorem applies_preOrders {sels : List Selector} : ∀ {vs l : List V}, PreOrders vs l → (∀ v ∈ vs, v.WF) → ∀ {parts : List (List V)},
    All2 (Bracketed sels) l parts → ∃ ls, All2 (Applies (.descend sels)) vs ls ∧ parts.flatten = ls.flatten
  | _, _, .nil, _, parts, h => by cases h; exact ⟨[], .nil, rfl⟩
  | _, _, .cons v vs l l' h h', hw, parts, hp => by
    obtain ⟨p1, p2, rfl, h1, h2⟩ : ∃ p1 p2, parts = p1 ++ p2 ∧ All2 (Bracketed sels) l p1 ∧ All2 (Bracketed sels) l' p2 := by
      clear h h'
      induction l generalizing parts with
      | nil => exact ⟨[], parts, rfl, .nil, hp⟩
      | cons a l ih =>
        cases hp with
        | cons ha hp =>
          obtain ⟨p1, p2, rfl, h1, h2⟩ := ih _ hp
          exact ⟨_ :: p1, p2, rfl, .cons ha h1, h2⟩
    obtain ⟨ls, h3, h4⟩ := applies_preOrders h' (fun w hw' => hw w (by simp [hw'])) h2
    obtain ⟨ds, h5, h6⟩ := preOrder_visits h (hw v (by simp))
    rw [← h6] at h1
    obtain ⟨ls', h7, h8⟩ := bracketed_structures h1
    refine ⟨ls'.flatten :: ls, .cons (.descend h5 h7) h3, ?_⟩
    rw [List.flatten_append, List.flatten_cons, h4, h8]

mutual
theorem preOrder_at : ∀ {v : V} {l : List V}, PreOrder v l → ∀ w ∈ l, isStructure w = true ∧ ∃ p, At v p w
  | _, _, .arr xs l h, w, hw => by
    rcases List.mem_cons.1 hw with rfl | hw
    · exact ⟨rfl, [], .here _⟩
    · obtain ⟨hs, x, hx, p, hp⟩ := preOrders_at h w hw
      obtain ⟨i, hi⟩ := List.getElem?_of_mem hx
      exact ⟨hs, _, .elem hi hp⟩
  | _, _, .obj kvs vs l hp h, w, hw => by
    rcases List.mem_cons.1 hw with rfl | hw
    · exact ⟨rfl, [], .here _⟩
    · obtain ⟨hs, x, hx, p, hp'⟩ := preOrders_at h w hw
      obtain ⟨⟨k, x'⟩, hkv, rfl⟩ := List.mem_map.1 (hp.mem_iff.1 hx)
      exact ⟨hs, _, .member hkv hp'⟩
  | _, _, .other v h, w, hw => by cases hw
theorem preOrders_at : ∀ {vs l : List V}, PreOrders vs l → ∀ w ∈ l, isStructure w = true ∧ ∃ v ∈ vs, ∃ p, At v p w
  | _, _, .nil, w, hw => by cases hw
  | _, _, .cons v vs l l' h h', w, hw => by
    rcases List.mem_append.1 hw with hw | hw
    · obtain ⟨hs, p, hp⟩ := preOrder_at h w hw
      exact ⟨hs, v, by simp, p, hp⟩
    · obtain ⟨hs, x, hx, p, hp⟩ := preOrders_at h' w hw
      exact ⟨hs, x, by simp [hx], p, hp⟩
end

theorem sels_is (sels : List Selector) : All2 (fun v s => Sel.Is v s) (sels.map valOf) (sels.map selOf) := by
  induction sels with
  | nil => exact .nil
  | cons s r ih => exact .cons (selOf_is s) ih

/-- One segment. -/
theorem segment_eval (hv : oracle.Valid) {p1 p2 : JSONPath} {ss : Path} {seg : Segment} {st : Step} (hs : StepFor seg st)
    (h1 : IsCompiled env p1 ss) (h2 : IsCompiled env p2 (ss ++ [st])) {root : V} (hr : root.WF) {vs : List V}
    (he : Eval env oracle p1 root = some (.ok (some vs))) (hat : ∀ v ∈ vs, ∃ p, At root p v) (hval : ∀ s ∈ seg.sels, s.Valid)
    (hd : ∀ i, .index i ∈ seg.sels → ∀ p kvs, At root p (.obj kvs) → ∀ x, (writeInt i, x) ∉ kvs)
    (ha : seg.HasSlice → ∀ v ∈ vs, OnArrays seg v) :
    ∃ ls, All2 (Applies seg) vs ls ∧ Eval env oracle p2 root = some (.ok (some ls.flatten)) := by
  have hwf := eval_wf hr h1 he
  -- what the selectors select from a node
  have key : ∀ (sels : List Selector), sels = seg.sels → (∀ s ∈ sels, s ≠ .wild) → ∀ w, (∃ p, At root p w) →
      Bracketed sels w ((sels.map selOf).flatMap fun s => s.of w) := by
    rintro sels rfl hn w ⟨p, hp⟩
    exact bracketed_sels fun s hs => selects_sel (hr.at hp) (hval s hs) (hn s hs) fun i hi kvs hk x => by
      subst hi hk
      exact hd i hs p kvs hp x
  have below : ∀ {l : List V}, PreOrders vs l → ∀ w ∈ l, ∃ p, At root p w := by
    intro l hl w hw
    obtain ⟨_, x, hx, p, hp⟩ := preOrders_at hl w hw
    obtain ⟨q, hq⟩ := hat x hx
    exact ⟨_, hq.trans hp⟩
  cases hs with
  | wild =>
    obtain ⟨parts, hp, hev⟩ := C11_wild env oracle p1 p2 ss hv h1 h2 root vs he
    exact ⟨parts, all2_children hp, hev⟩
  | nestWild =>
    obtain ⟨l, parts, hl, hp, hev⟩ := C13_descent_wild env oracle p1 p2 ss hv h1 h2 root vs he
    obtain ⟨ls, h3, h4⟩ := applies_preOrders (sels := [.wild]) hl hwf (parts := parts)
      (hp.mono fun v l h => ⟨[l], .cons (.wild h) .nil, by simp⟩)
    exact ⟨ls, h3, by rw [hev, h4]⟩
  | member s =>
    have hev := C08_member env oracle p1 p2 ss s _ (.inl rfl) h1 h2 root hr vs he
    obtain ⟨ls, h3, h4⟩ := all2_flatMap (R := Applies (.child [.name s])) (f := memberOf s) vs
      (fun v hv => .child ⟨[_], .cons (selects_member (hwf v hv)) .nil, by simp⟩)
    exact ⟨ls, h3, by rw [hev, h4]⟩
  | nestMember s =>
    obtain ⟨l, hl, hev⟩ := C13_descent_partial env oracle p1 p2 ss hv _ _ _ (.member s) h1 h2 root hr vs he (fun _ _ _ _ => trivial)
    obtain ⟨parts, h5, h6⟩ := all2_flatMap (R := Bracketed [.name s]) (f := memberOf s) l
      (fun w hw => by
        obtain ⟨p, hp⟩ := below hl w hw
        exact ⟨[_], .cons (selects_member (hr.at hp)) .nil, by simp⟩)
    obtain ⟨ls, h3, h4⟩ := applies_preOrders hl hwf h5
    exact ⟨ls, h3, by rw [hev, h6, h4]⟩
  | select s hn =>
    have hfit : ∀ v ∈ vs, (selOf s).Fits v := fun v hv => fits_sel (hval s (by simp [Segment.sels])) (fun ⟨a, b, c, h⟩ =>
      ha ⟨a, b, c, by simp [Segment.sels, h]⟩ v hv)
    have hev := C12_single env oracle p1 p2 ss _ _ (selOf_is s) h1 h2 root hr vs he hfit
    obtain ⟨ls, h3, h4⟩ := all2_flatMap (R := Applies (.child [s])) (f := (selOf s).of) vs
      (fun v hv => .child (by have := key [s] rfl (by simpa using hn) v (hat v hv); simpa using this))
    exact ⟨ls, h3, by rw [hev, h4]⟩
  | nestSelect s hn =>
    have hfit : ∀ l, PreOrders vs l → ∀ w ∈ l, (selOf s).Fits w := fun l hl w hw =>
      fits_sel (hval s (by simp [Segment.sels])) (fun ⟨a, b, c, h⟩ => by
        obtain ⟨hs, x, hx, p, hp⟩ := preOrders_at hl w hw
        exact ha ⟨a, b, c, by simp [Segment.sels, h]⟩ x hx p w hp hs)
    obtain ⟨l, hl, hev⟩ := C13_descent_partial env oracle p1 p2 ss hv _ _ _ (.select _ _ (selOf_is s)) h1 h2 root hr vs he hfit
    obtain ⟨parts, h5, h6⟩ := all2_flatMap (R := Bracketed [s]) (f := (selOf s).of) l
      (fun w hw => by have := key [s] rfl (by simpa using hn) w (below hl w hw); simpa using this)
    obtain ⟨ls, h3, h4⟩ := applies_preOrders hl hwf h5
    exact ⟨ls, h3, by rw [hev, h6, h4]⟩
  | union sels hn =>
    have hfit : ∀ v ∈ vs, ∀ s ∈ sels.map selOf, s.Fits v := fun v hv s hs => by
      obtain ⟨s, hm, rfl⟩ := List.mem_map.1 hs
      exact fits_sel (hval s hm) (fun ⟨a, b, c, h⟩ => ha ⟨a, b, c, by rw [← h]; exact hm⟩ v hv)
    have hev := C12_union_partial env oracle p1 p2 ss _ _ (sels_is sels) h1 h2 root hr vs he hfit
    obtain ⟨ls, h3, h4⟩ := all2_flatMap (R := Applies (.child sels)) (f := fun v => (sels.map selOf).flatMap fun s => s.of v) vs
      (fun v hv => .child (key sels rfl hn v (hat v hv)))
    exact ⟨ls, h3, by rw [hev, h4]⟩
  | nestUnion sels hn =>
    have hfit : ∀ l, PreOrders vs l → ∀ w ∈ l, ∀ s ∈ sels.map selOf, s.Fits w := fun l hl w hw s hs => by
      obtain ⟨s, hm, rfl⟩ := List.mem_map.1 hs
      exact fits_sel (hval s hm) (fun ⟨a, b, c, h⟩ => by
        obtain ⟨hst, x, hx, p, hp⟩ := preOrders_at hl w hw
        exact ha ⟨a, b, c, by rw [← h]; exact hm⟩ x hx p w hp hst)
    obtain ⟨l, hl, hev⟩ := C13_descent_partial env oracle p1 p2 ss hv _ _ _ (.union _ _ (sels_is sels)) h1 h2 root hr vs he hfit
    obtain ⟨parts, h5, h6⟩ := all2_flatMap (R := Bracketed sels) (f := fun v => (sels.map selOf).flatMap fun s => s.of v) l
      (fun w hw => key sels rfl hn w (below hl w hw))
    obtain ⟨ls, h3, h4⟩ := applies_preOrders hl hwf h5
    exact ⟨ls, h3, by rw [hev, h6, h4]⟩

theorem all2_snoc {α β : Type} {R : α → β → Prop} : ∀ {as : List α} {a : α} {bs : List β}, All2 R (as ++ [a]) bs →
    ∃ bs' b, bs = bs' ++ [b] ∧ All2 R as bs' ∧ R a b
  | [], a, bs, h => by
    cases h with
    | cons h1 h2 => cases h2; exact ⟨[], _, rfl, .nil, h1⟩
  | x :: as, a, bs, h => by
    cases h with
    | cons h1 h2 =>
      obtain ⟨bs', b, rfl, h3, h4⟩ := all2_snoc h2
      exact ⟨_ :: bs', b, rfl, .cons h1 h3, h4⟩

/-- Whole queries. -/
theorem query_eval (hv : oracle.Valid) {root : V} (hr : root.WF) : ∀ (n : Nat) (q : Query), q.length = n → q.Valid → NoDigits root q →
    SlicesOnArrays root q → ∀ (ss : Path) (text : Bytes), All2 StepFor q ss → parsePath env text = .ok ss → text.length ≤ 3 * 2 ^ 20 →
    ∃ p res, Compile env text = .ok p ∧ IsCompiled env p ss ∧ Eval env oracle p root = some (.ok (some res)) ∧ Gives root q res := by
  intro n
  induction n with
  | zero =>
    intro q hn _ _ _ ss text ha hp hl
    cases List.length_eq_zero_iff.1 hn
    cases ha
    obtain ⟨p, hc, hi⟩ := compiled_of_parse hp hl
    exact ⟨p, [root], hc, hi, by rw [hi.eval]; rfl, .root⟩
  | succ n ih =>
    intro q hn hq hd hsl ss text ha hp hl
    obtain ⟨q', seg, rfl⟩ : ∃ q' seg, q = q' ++ [seg] := by
      rcases List.eq_nil_or_concat q with rfl | ⟨q', seg, rfl⟩
      · cases hn
      · exact ⟨q', seg, by simp⟩
    obtain ⟨ss, st, rfl, ha1, ha2⟩ := all2_snoc ha
    obtain ⟨a, r, rfl, hp1, _⟩ := parsePath_cut hp
    obtain ⟨p2, hc2, hi2⟩ := compiled_of_parse hp hl
    obtain ⟨p1, vs, hc1, hi1, he1, hg1⟩ := ih q' (by simpa using hn) (fun seg hs => hq seg (by simp [hs])) (fun seg hs => hd seg (by simp [hs]))
      (fun q1 seg' q2 he => hsl q1 seg' (q2 ++ [seg]) (by rw [he]; simp)) ss a ha1 hp1 (by rw [List.length_append] at hl; omega)
    have hnf : Path.hasFilter ss = false := by
      unfold Path.hasFilter
      rw [List.any_eq_false]
      intro s hs
      obtain ⟨seg, _, h⟩ := ha1.mem_right hs
      rw [stepFor_noFilter h]
      exact Bool.false_ne_true
    obtain ⟨ls, h3, h4⟩ := segment_eval hv ha2 hi1 hi2 hr he1
      (fun v hv => desc_at (C07_no_filter_results_from_document_partial env oracle a p1 hc1 hi1.small root hr ss hp1 hnf vs he1 v hv))
      (hq seg (by simp)).2 (hd seg (by simp)) (fun hs v hv' => hsl q' seg [] rfl hs vs hg1 v hv')
    exact ⟨p2, _, hc2, hi2, h4, .segment hg1 h3⟩

end JP.Rfc
