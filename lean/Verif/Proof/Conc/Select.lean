import Verif.Proof.Conc.Slice
/-!
Selection in the model of `Model/Conc.lean` does what it does in `Model/Machine.lean`.
-/
namespace JP.Conc

theorem sim_map {α β γ : Type} {e : Nat} {F : Addr → Prop} {r : Res RErr β} {f : β → γ}
    {P : α → β → Heap → Prop} {P' : α → γ → Heap → Prop} {p : PR α} {h : Heap}
    (hp : wp e F (Post r P) p h) (hf : ∀ a b h, P a b h → P' a (f b) h) :
    wp e F (Post (r >>= fun b => .ok (f b)) P') p h := by
  refine wp_mono ?_ p h hp
  intro x h' hx
  cases x with
  | ok a => obtain ⟨b, hb, hP⟩ := hx; rw [hb]; exact ⟨f b, rfl, hf _ _ _ hP⟩
  | err x => cases hx; rfl
  | panic m => cases hx; rfl
  | stuck => cases hx; rfl

/-- Code that cannot fail does what the model does if the model's result is the one required. -/
theorem sim_of_ok {α β : Type} {e : Nat} {F : Addr → Prop} {b : β} {P : α → Heap → Prop}
    {P' : α → β → Heap → Prop} {p : PR α} {h : Heap} (hp : wp e F (Ok P) p h)
    (hf : ∀ a h, P a h → P' a b h) : wp e F (Post (.ok b) P') p h := by
  refine wp_mono ?_ p h hp
  intro x h' hx
  cases x with
  | ok a => exact ⟨b, rfl, hf _ _ hx⟩
  | err x => exact hx.elim
  | panic m => exact hx.elim
  | stuck => exact hx.elim

theorem appendAll_snoc (g : GoSlice) (vs : List V) (v : V) :
    (g.appendAll vs).append v = g.appendAll (vs ++ [v]) := by
  cases vs with
  | nil => rfl
  | cons w ws => simp [GoSlice.appendAll, GoSlice.append, GoSlice.elems]

section
variable {e : Nat} {F X : Addr → Prop} {h0 : Heap} {grow : Nat → Nat} (hF : FValid F h0)
  (hX : ∀ a, X a → ¬F a)
include hF hX

theorem acc_sliceLoop {r : SRef} {vs : List V} (hs : Src e F X h0 r vs) (up : Bool) (stop stride : Int64)
    (g : GoSlice) : ∀ (f : Nat) (i : Int64) (acc : List V) (h : Heap) (o : Option SRef)
    (_ : Accum e F X h0 h o (g.appendAll acc)),
    wp e F (Post (JP.sliceLoop up vs stop stride f i acc) (fun o' ws h' => Accum e F X h0 h' o' (g.appendAll ws)))
      (sliceLoop grow up r stop stride f i o) h
  | 0, i, acc, h, o, ha => rfl
  | f + 1, i, acc, h, o, ha => by
    unfold sliceLoop JP.sliceLoop
    by_cases hc : if up = true then i < stop else i > stop
    · simp only [hc, if_true, goIndex]
      by_cases hi : i < 0 ∨ r.len ≤ i.toInt.toNat
      · simp only [hi, if_true]
        have : (if i < 0 then none else vs[i.toInt.toNat]?) = none := by
          rcases hi with hi | hi
          · simp [hi]
          · split
            · rfl
            · rw [List.getElem?_eq_none_iff, ← hs.len]; exact hi
        rw [this]
        rfl
      · simp only [hi, if_false]
        have h1 : ¬ i < 0 := fun h => hi (.inl h)
        have h2 : i.toInt.toNat < vs.length := by rw [← hs.len]; omega
        simp only [h1, if_false, List.getElem?_eq_getElem h2]
        obtain ⟨x, hx, hr⟩ := hs.cell ha.ext (List.getElem?_eq_getElem h2)
        refine wp_read hs.1 hx ?_
        refine wp_seq (acc_append hF hX ha hr) ?_
        intro r' h' ha'
        rw [appendAll_snoc] at ha'
        exact acc_sliceLoop hs up stop stride g f _ _ h' (some r') ha'
    · simp only [hc, if_false]
      exact ⟨acc, rfl, ha⟩

theorem acc_sliceVals {r : SRef} {vs : List V} (hs : Src e F X h0 r vs) (s : Slice) {h : Heap}
    {o : Option SRef} {g : GoSlice} (ha : Accum e F X h0 h o g) :
    wp e F (Post (JP.sliceVals vs s) (fun o' ws h' => Accum e F X h0 h' o' (g.appendAll ws)))
      (sliceVals grow r s o) h := by
  unfold sliceVals JP.sliceVals
  rw [hs.len]
  rcases he : sliceEval s (Int64.ofNat vs.length) with ⟨start, stop, stride⟩
  simp only
  split
  · exact acc_sliceLoop hF hX hs _ _ _ g _ _ [] h o ha
  · split
    · exact acc_sliceLoop hF hX hs _ _ _ g _ _ [] h o ha
    · exact ⟨[], rfl, ha⟩

theorem sim_valByKey {env : Env} {src : HV} {v key : V} {neg : Bool} {h : Heap} (hE : Ext e X h0 h)
    (hs : Rep F h0 src v) :
    wp e F (Ok fun ox h' => h' = h ∧ ((ox = none ∧ JP.valByKey env v key neg = none) ∨
      ∃ x w, ox = some x ∧ JP.valByKey env v key neg = some w ∧ Rep F h0 x w)) (valByKey env src key neg) h := by
  cases hs with
  | atom v hv =>
    cases v with
    | null => exact ⟨rfl, .inr ⟨_, _, rfl, rfl, .atom _ rfl⟩⟩
    | arr xs => simp [isStructure] at hv
    | obj xs => simp [isStructure] at hv
    | _ => exact ⟨rfl, .inl ⟨rfl, rfl⟩⟩
  | arr r cs vs h1 h2 h3 h4 =>
    have hsrc : Src e F X h0 r vs := src_of_rep hX (.arr r cs vs h1 h2 h3 h4)
    simp only [valByKey, JP.valByKey, hsrc.len, goIndex]
    generalize hn : (if (neg && decide (cvi env key < 0)) = true then cvi env key + Int64.ofNat vs.length
      else cvi env key) = n
    split
    · rename_i hc
      simp only [Bool.and_eq_true, decide_eq_true_eq] at hc
      have hge : ¬ n < 0 := by
        have := hc.1
        rw [ge_iff_le, Int64.le_iff_toInt_le] at this
        rw [Int64.lt_iff_toInt_lt]; omega
      simp only [hge, if_false]
      have hlt : n.toInt.toNat < vs.length := by
        have h5 := hc.2
        have h7 := hc.1
        rw [ge_iff_le, Int64.le_iff_toInt_le] at h7
        have h8 : (0 : Int64).toInt = 0 := rfl
        rw [Int64.lt_iff_toInt_lt] at h5
        have h6 : (Int64.ofNat vs.length).toInt ≤ vs.length := by
          rw [Int64.toInt_ofNat', Int.bmod_def, show (Int64.size : Nat) = 18446744073709551616 from rfl]
          split <;> omega
        omega
      obtain ⟨x, hx, hr⟩ := hsrc.cell hE (List.getElem?_eq_getElem hlt)
      refine wp_read hsrc.1 hx ?_
      exact ⟨rfl, .inr ⟨_, _, rfl, List.getElem?_eq_getElem hlt, hr⟩⟩
    · exact ⟨rfl, .inl ⟨rfl, rfl⟩⟩
  | obj a m kvs h1 h2 h3 =>
    refine ⟨.inr h1, m, by rw [hE.frozen hF hX a h1]; exact h2, rfl, ?_⟩
    rcases h3.lookup (mapKey env key) with ⟨h4, h5⟩ | ⟨x, w, h4, h5, h6⟩
    · exact .inl ⟨h4, h5⟩
    · exact .inr ⟨x, w, h4, h5, h6⟩

theorem acc_byKey {env : Env} {src : HV} {v key : V} {neg : Bool} {h : Heap} {o : Option SRef} {g : GoSlice}
    (ha : Accum e F X h0 h o g) (hs : Rep F h0 src v) :
    wp e F (Post (match JP.valByKey env v key neg with | some w => .ok (g.append w) | none => .ok g)
      (fun o' g' h' => Accum e F X h0 h' o' g'))
      (valByKey env src key neg >>= fun x => appendOpt grow o x : PR _) h := by
  refine wp_seq (sim_valByKey hF hX ha.ext hs) ?_
  rintro ox h' ⟨rfl, ⟨rfl, h1⟩ | ⟨x, w, rfl, h1, h2⟩⟩
  · rw [h1]; exact ⟨g, rfl, ha⟩
  · rw [h1]
    refine wp_seq (acc_append hF hX ha h2) ?_
    intro r h' ha'
    exact ⟨_, rfl, ha'⟩

theorem acc_valsByKey {env : Env} {src : HV} {v key : V} {neg : Bool} {h : Heap} {o : Option SRef} {g : GoSlice}
    (ha : Accum e F X h0 h o g) (hs : Rep F h0 src v) :
    wp e F (Post (JP.valsByKey env g v key neg) (fun o' g' h' => Accum e F X h0 h' o' g'))
      (valsByKey env grow o src key neg) h := by
  have hnil : Accum e F X h0 h none none :=
    ⟨ha.ext, trivial, by rintro a ⟨r, h1, _⟩; cases h1⟩
  have gen : (∀ s, key ≠ .slice s) →
      wp e F (Post (JP.valsByKey env g v key neg) (fun o' g' h' => Accum e F X h0 h' o' g'))
        (valsByKey env grow o src key neg) h := by
    intro hk
    cases hs with
    | atom v hv =>
      have h1 : JP.valsByKey env g v key neg = .ok g := by
        cases key <;> cases v <;> first | rfl | (exfalso; exact hk _ rfl) | (simp [isStructure] at hv)
      have h2 : valsByKey env grow o (.atom v) key neg = .ok o := by
        cases key <;> first | rfl | (exfalso; exact hk _ rfl)
      rw [h1, h2]
      exact ⟨g, rfl, ha⟩
    | arr r cs vs h1 h2 h3 h4 =>
      have h5 : JP.valsByKey env g (.arr vs) key neg = if isInt key then
          (match JP.valByKey env (.arr vs) key neg with | some w => .ok (g.append w) | none => .ok g)
          else .ok g := by
        cases key <;> first | rfl | (exfalso; exact hk _ rfl)
      have h6 : valsByKey env grow o (.arr r) key neg = if isInt key then
          (valByKey env (.arr r) key neg >>= fun x => appendOpt grow o x : PR _) else .ok o := by
        cases key <;> first | rfl | (exfalso; exact hk _ rfl)
      rw [h5, h6]
      split
      · exact acc_byKey hF hX ha (.arr r cs vs h1 h2 h3 h4)
      · exact ⟨g, rfl, ha⟩
    | obj a m kvs h1 h2 h3 =>
      have h5 : JP.valsByKey env g (.obj kvs) key neg =
          (match JP.valByKey env (.obj kvs) key false with | some w => .ok (g.append w) | none => .ok g) := by
        cases key <;> first | rfl | (exfalso; exact hk _ rfl)
      have h6 : valsByKey env grow o (.obj a) key neg =
          (valByKey env (.obj a) key false >>= fun x => appendOpt grow o x : PR _) := by
        cases key <;> first | rfl | (exfalso; exact hk _ rfl)
      rw [h5, h6]
      exact acc_byKey hF hX ha (.obj a m kvs h1 h2 h3)
  cases key with
  | slice s =>
    cases hs with
    | atom v hv =>
      have h1 : JP.valsByKey env g v (.slice s) neg = .ok none := by
        cases v <;> first | rfl | (simp [isStructure] at hv)
      rw [h1]; exact ⟨none, rfl, hnil⟩
    | arr r cs vs h1 h2 h3 h4 =>
      exact sim_map (f := fun ws => g.appendAll ws)
        (acc_sliceVals hF hX (src_of_rep hX (.arr r cs vs h1 h2 h3 h4)) s ha) (fun _ _ _ h => h)
    | obj a m kvs h1 h2 h3 => exact ⟨none, rfl, hnil⟩
  | _ => exact gen (by simp)

theorem acc_unionByKeys {env : Env} {src : HV} {v : V} (hs : Rep F h0 src v) :
    ∀ (xs : List HV) (sels : List V) (_ : RepL F h0 xs sels) (h : Heap) (o : Option SRef) (g : GoSlice)
    (_ : Accum e F X h0 h o g),
    wp e F (Post (JP.unionByKeys env g v sels) (fun o' g' h' => Accum e F X h0 h' o' g'))
      (unionByKeys env grow o src xs) h
  | _, _, .nil, h, o, g, ha => ⟨g, rfl, ha⟩
  | _, _, .cons x sel xs sels h1 h2, h, o, g, ha => by
    unfold unionByKeys JP.unionByKeys
    refine wp_load (h1.ext ha.ext hF hX) ?_
    split
    · exact acc_unionByKeys hs xs sels h2 h o g ha
    · exact sim_bind (acc_valsByKey hF hX ha hs)
        (fun o' g' h' _ ha' => acc_unionByKeys hs xs sels h2 h' o' g' ha')

/-- A selection of the one model that does what the selection of the other does. -/
def SelSim (e : Nat) (F X : Addr → Prop) (h0 : Heap) (fH : Nat → HV → Option SRef → PR (Option SRef))
    (fV : Nat → V → GoSlice → Res RErr GoSlice) : Prop :=
  ∀ k el v (_ : Rep F h0 el v) h o g (_ : Accum e F X h0 h o g),
    wp e F (Post (fV k v g) (fun o' g' h' => Accum e F X h0 h' o' g')) (fH k el o) h

omit hF hX in
theorem acc_applyLoop {fH : Nat → HV → Option SRef → PR (Option SRef)}
    {fV : Nat → V → GoSlice → Res RErr GoSlice} (hf : SelSim e F X h0 fH fV) {r : SRef} {vs : List V}
    (hs : Src e F X h0 r vs) : ∀ (n i : Nat) (_ : i + n = vs.length) (h : Heap) (o : Option SRef) (g : GoSlice)
    (_ : Accum e F X h0 h o g),
    wp e F (Post (JP.applySelection fV i g (vs.drop i)) (fun o' g' h' => Accum e F X h0 h' o' g'))
      (applyLoop fH r n i o) h
  | 0, i, hi, h, o, g, ha => by
    have : vs.drop i = [] := by simp; omega
    rw [this]; exact ⟨g, rfl, ha⟩
  | n + 1, i, hi, h, o, g, ha => by
    have hlt : i < vs.length := by omega
    obtain ⟨x, hx, hr⟩ := hs.cell ha.ext (List.getElem?_eq_getElem hlt)
    unfold applyLoop
    refine wp_read hs.1 hx ?_
    rw [List.drop_eq_getElem_cons hlt]
    exact sim_bind (hf i x _ hr h o g ha)
      (fun o' g' h' _ ha' => acc_applyLoop hf hs n (i + 1) (by omega) h' o' g' ha')

end

/-- mach/run.go:525-531. -/
theorem sim_applySelection {e : Nat} {F : Addr → Prop} {h : Heap}
    {fH : Nat → HV → Option SRef → PR (Option SRef)}
    {fV : Nat → V → GoSlice → Res RErr GoSlice} (hF : FValid F h)
    (hf : SelSim e F (fun _ => False) h fH fV) {src : Option SRef} {g : GoSlice} (hs : OutRep e F h src g) :
    wp e F (Post (JP.applySelection fV 0 (some []) g.elems)
      (fun o' g' h' => Accum e F (fun _ => False) h h' o' g')) (applySelection fH src) h := by
  refine wp_seq (wp_emptySlice hF) ?_
  rintro r h' ⟨h1, h2, h3⟩
  have ha : Accum e F (fun _ => False) h h' (some r) (some []) :=
    ⟨h1, h2, by rintro a ⟨r', hr', rfl⟩; cases hr'; exact .inr h3⟩
  cases src with
  | none =>
    cases g with
    | none => exact ⟨_, rfl, ha⟩
    | some vs => exact hs.elim
  | some q =>
    obtain ⟨cs, h4, h5⟩ := hs.elems
    have hl := h4.len; have hc := h4.cap; have ho := h4.off
    have hsrc : Src e F (fun _ => False) h q g.elems :=
      ⟨.inl h4.owner, fun h => h, cs, h4.get, by omega, by rw [ho, List.drop_zero]; exact h5⟩
    exact acc_applyLoop hf hsrc q.len 0 (by rw [hsrc.len]; omega) h' (some r) (some []) ha

end JP.Conc
