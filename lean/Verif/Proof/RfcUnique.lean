import Verif.Proof.Rfc
/-! The nodelists of a query differ in their order only. -/
namespace JP.Rfc
open Spec

theorem upward_unique {xs : List V} {hi c : Int} : ∀ {i : Int} {l l' : List V}, Upward xs hi c i l → Upward xs hi c i l' → l = l' := by
  intro i l l' h
  induction h generalizing l' with
  | stop h =>
    intro h'
    cases h' with
    | stop => rfl
    | select h1 => omega
  | select h1 h2 h3 _ ih =>
    intro h'
    cases h' with
    | stop h => omega
    | select _ _ h3' h4' =>
      rw [h3] at h3'
      cases h3'
      rw [ih h4']

theorem downward_unique {xs : List V} {lo c : Int} : ∀ {i : Int} {l l' : List V}, Downward xs lo c i l → Downward xs lo c i l' → l = l' := by
  intro i l l' h
  induction h generalizing l' with
  | stop h =>
    intro h'
    cases h' with
    | stop => rfl
    | select h1 => omega
  | select h1 h2 h3 _ ih =>
    intro h'
    cases h' with
    | stop h => omega
    | select _ _ h3' h4' =>
      rw [h3] at h3'
      cases h3'
      rw [ih h4']

theorem key_unique {kvs : List (Bytes × V)} (hn : (kvs.map Prod.fst).Nodup) {k : Bytes} {x y : V} (hx : (k, x) ∈ kvs) (hy : (k, y) ∈ kvs) :
    x = y := by
  have h1 := memberOf_eq hn hx
  have h2 := memberOf_eq hn hy
  rw [h1] at h2
  exact (List.cons.inj h2).1

theorem selects_perm {s : Selector} {v : V} (hw : v.WF) {l l' : List V} (h : Selects s v l) (h' : Selects s v l') : l.Perm l' := by
  cases h with
  | member hx =>
    unfold V.WF at hw
    cases h' with
    | member hy => rw [key_unique hw.2.1 hx hy]
    | noMember hn => exact absurd hx (hn _)
    | noObject hn => exact absurd rfl (hn _)
  | noMember hn =>
    cases h' with
    | member hy => exact absurd hy (hn _)
    | noMember => exact .refl _
    | noObject => exact .refl _
  | noObject hn =>
    cases h' with
    | member hy => exact absurd rfl (hn _)
    | noMember => exact .refl _
    | noObject => exact .refl _
  | wild h =>
    cases h' with
    | wild h' =>
      cases h with
      | arr => cases h' with
        | arr => exact .refl _
        | other _ h => cases h
      | obj _ _ h => cases h' with
        | obj _ _ h' => exact h.trans h'.symm
        | other _ h => cases h
      | other _ h => cases h' with
        | arr => cases h
        | obj => cases h
        | other => exact .refl _
  | element h0 hx =>
    cases h' with
    | element _ hy => rw [hx] at hy; cases hy; exact .refl _
    | noElement hn =>
      have := List.getElem?_eq_some_iff.1 hx
      obtain ⟨hlt, _⟩ := this
      omega
    | noArray hn => exact absurd rfl (hn _)
  | noElement hn =>
    cases h' with
    | element h0 hy =>
      obtain ⟨hlt, _⟩ := List.getElem?_eq_some_iff.1 hy
      omega
    | noElement => exact .refl _
    | noArray => exact .refl _
  | noArray hn =>
    cases h' with
    | element => exact absurd rfl (hn _)
    | noElement => exact .refl _
    | noArray => exact .refl _
  | up hc hu =>
    cases h' with
    | up _ hu' => rw [upward_unique hu hu']
    | down hc' => omega
    | zero => exact absurd hc (by decide)
    | noSlice hn => exact absurd rfl (hn _)
  | down hc hu =>
    cases h' with
    | up hc' => omega
    | down _ hu' => rw [downward_unique hu hu']
    | zero => exact absurd hc (by decide)
    | noSlice hn => exact absurd rfl (hn _)
  | zero =>
    cases h' with
    | up hc => exact absurd hc (by decide)
    | down hc => exact absurd hc (by decide)
    | zero => exact .refl _
    | noSlice => exact .refl _
  | noSlice hn =>
    cases h' with
    | up => exact absurd rfl (hn _)
    | down => exact absurd rfl (hn _)
    | zero => exact .refl _
    | noSlice => exact .refl _

theorem all2_perm {α : Type} {R : α → List V → Prop} {as : List α} (hR : ∀ a ∈ as, ∀ l l', R a l → R a l' → l.Perm l') :
    ∀ {ls ls' : List (List V)}, All2 R as ls → All2 R as ls' → ls.flatten.Perm ls'.flatten := by
  induction as with
  | nil => intro ls ls' h h'; cases h; cases h'; exact .refl _
  | cons a r ih =>
    intro ls ls' h h'
    cases h with
    | cons h1 h2 =>
      cases h' with
      | cons h1' h2' =>
        rw [List.flatten_cons, List.flatten_cons]
        exact (hR a (by simp) _ _ h1 h1').append (ih (fun b hb => hR b (by simp [hb])) h2 h2')

theorem all2_swap {α β : Type} {R : α → β → Prop} {as : List α} {bs : List β} (h : All2 R as bs) : All2 (fun b a => R a b) bs as := by
  induction h with
  | nil => exact .nil
  | cons h _ ih => exact .cons h ih

/-- Results for the same values in another order. -/
theorem all2_perm_left {α : Type} {R : α → List V → Prop} {as as' : List α} (hp : as.Perm as')
    (hR : ∀ a ∈ as, ∀ l l', R a l → R a l' → l.Perm l') {ls ls' : List (List V)} (h : All2 R as ls) (h' : All2 R as' ls') :
    ls.flatten.Perm ls'.flatten := by
  obtain ⟨ms, hm, h2⟩ := (all2_swap h).perm_right hp
  exact hm.flatten.trans (all2_perm (fun a ha => hR a (hp.mem_iff.2 ha)) (all2_swap h2) h')

theorem bracketed_perm {sels : List Selector} {v : V} (hw : v.WF) {l l' : List V} (h : Bracketed sels v l) (h' : Bracketed sels v l') : l.Perm l' := by
  obtain ⟨ls, h1, rfl⟩ := h
  obtain ⟨ls', h2, rfl⟩ := h'
  exact all2_perm (R := fun s l => Selects s v l) (fun s _ l l' => selects_perm hw) h1 h2

theorem visits_nodup {v : V} {ds : List (Place × V)} (h : Visits v ds) : ds.Nodup :=
  h.2.imp fun {a b} hab he => hab.1 (by rw [he])

theorem visits_perm {v : V} {ds ds' : List (Place × V)} (h : Visits v ds) (h' : Visits v ds') : ds.Perm ds' :=
  (List.perm_ext_iff_of_nodup (visits_nodup h) (visits_nodup h')).2 fun ⟨p, w⟩ => (h.1 p w).trans (h'.1 p w).symm

theorem applies_perm {seg : Segment} {v : V} (hw : v.WF) {l l' : List V} (h : Applies seg v l) (h' : Applies seg v l') : l.Perm l' := by
  cases h with
  | child h =>
    cases h' with
    | child h' => exact bracketed_perm hw h h'
  | descend h1 h2 =>
    cases h' with
    | descend h1' h2' =>
      exact all2_perm_left (visits_perm h1 h1') (fun d hd l l' => bracketed_perm (hw.at ((h1.1 d.1 d.2).1 hd))) h2 h2'

theorem upward_mem {xs : List V} {hi c : Int} {i : Int} {l : List V} (h : Upward xs hi c i l) : ∀ x ∈ l, x ∈ xs := by
  induction h with
  | stop => intro x hx; cases hx
  | select _ _ h3 _ ih =>
    intro x hx
    rcases List.mem_cons.1 hx with rfl | hx
    · exact List.mem_of_getElem? h3
    · exact ih x hx

theorem downward_mem {xs : List V} {lo c : Int} {i : Int} {l : List V} (h : Downward xs lo c i l) : ∀ x ∈ l, x ∈ xs := by
  induction h with
  | stop => intro x hx; cases hx
  | select _ _ h3 _ ih =>
    intro x hx
    rcases List.mem_cons.1 hx with rfl | hx
    · exact List.mem_of_getElem? h3
    · exact ih x hx

theorem selects_wf {s : Selector} {v : V} (hw : v.WF) {l : List V} (h : Selects s v l) : ∀ x ∈ l, x.WF := by
  cases h with
  | member hx =>
    intro x hm
    rw [List.mem_singleton.1 hm]
    exact hw.at (.member hx (.here _))
  | wild h =>
    intro x hx
    cases h with
    | arr => unfold V.WF at hw; exact wfs_mem hw.2 _ hx
    | obj _ _ hp =>
      unfold V.WF at hw
      obtain ⟨kv, hkv, rfl⟩ := List.mem_map.1 (hp.mem_iff.1 hx)
      exact wfm_mem hw.2.2 kv.1 kv.2 hkv
    | other => cases hx
  | element _ hx =>
    intro x hm
    rw [List.mem_singleton.1 hm]
    exact hw.at (.elem hx (.here _))
  | up _ hu => intro x hx; unfold V.WF at hw; exact wfs_mem hw.2 _ (upward_mem hu x hx)
  | down _ hu => intro x hx; unfold V.WF at hw; exact wfs_mem hw.2 _ (downward_mem hu x hx)
  | _ => intro x hx; cases hx

theorem bracketed_wf {sels : List Selector} {v : V} (hw : v.WF) {l : List V} (h : Bracketed sels v l) : ∀ x ∈ l, x.WF := by
  obtain ⟨ls, h1, rfl⟩ := h
  intro x hx
  obtain ⟨l, hl, hx⟩ := List.mem_flatten.1 hx
  obtain ⟨s, _, h⟩ := h1.mem_right hl
  exact selects_wf hw h x hx

theorem applies_wf {seg : Segment} {v : V} (hw : v.WF) {l : List V} (h : Applies seg v l) : ∀ x ∈ l, x.WF := by
  cases h with
  | child h => exact bracketed_wf hw h
  | descend h1 h2 =>
    intro x hx
    obtain ⟨l, hl, hx⟩ := List.mem_flatten.1 hx
    obtain ⟨d, hd, h⟩ := h2.mem_right hl
    exact bracketed_wf (hw.at ((h1.1 d.1 d.2).1 hd)) h x hx

theorem gives_wf {root : V} (hw : root.WF) {q : Query} {l : List V} (h : Gives root q l) : ∀ x ∈ l, x.WF := by
  induction h with
  | root => intro x hx; rw [List.mem_singleton.1 hx]; exact hw
  | segment _ h2 ih =>
    intro x hx
    obtain ⟨l, hl, hx⟩ := List.mem_flatten.1 hx
    obtain ⟨v, hv, h⟩ := h2.mem_right hl
    exact applies_wf (ih v hv) h x hx

theorem gives_perm {root : V} (hw : root.WF) {q : Query} {l l' : List V} (h : Gives root q l) (h' : Gives root q l') : l.Perm l' := by
  induction h generalizing l' with
  | root =>
    generalize hq : ([] : Query) = q0 at h'
    cases h' with
    | root => exact .refl _
    | segment => exact absurd hq (by simp)
  | @segment q seg vs ls h1 h2 ih =>
    generalize hq : q ++ [seg] = q0 at h'
    cases h' with
    | root => exact absurd hq (by simp)
    | segment h1' h2' =>
      obtain ⟨rfl, hs⟩ := List.append_inj' hq rfl
      cases (List.cons.inj hs).1
      exact all2_perm_left (ih h1') (fun v hv l l' => applies_perm (gives_wf hw h1 v hv)) h2 h2'

end JP.Rfc
