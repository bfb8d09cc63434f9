import Verif.Spec.Literals
import Verif.Proof.Join
/-!
Literals.
-/
namespace JP
open Spec

variable {env : Env} {pf : Bytes → Option F64} {valid : Bytes → Bool}

/-! ## Regular expressions -/

theorem reBody_iff {t v : Bytes} : ReBody t v ↔ Closed t ∧ v = unslash t := by
  constructor
  · intro h
    induction h with
    | nil => simp [Closed, unslash]
    | slash t v h ih => simp [Closed, unslash, ih.1, ih.2]
    | plain c t v h1 h2 h ih =>
      cases t with
      | nil => cases h; simp [Closed, unslash]; exact ⟨h1, h2⟩
      | cons d t => simp [Closed, unslash, h2, ih.1, ih.2]; exact h1
    | backslash c t v h1 h ih =>
      have : ¬ (c = 47) := h1
      simp [Closed, unslash, this, ih.1, ih.2]
  · rintro ⟨h, rfl⟩
    induction t using unslash.induct with
    | case1 => exact .nil
    | case2 c => exact .plain c [] [] h.1 h.2 .nil
    | case3 c d t hc ih =>
      obtain ⟨rfl, rfl⟩ := hc
      simp only [Closed, unslash, and_self, if_true] at h ⊢
      exact .slash _ _ (ih h.2)
    | case4 c d t hc ih =>
      simp only [Closed, unslash, if_neg hc] at h ⊢
      by_cases h1 : c = c! '\\'
      · subst h1
        exact .backslash _ _ _ (fun e => hc ⟨rfl, e⟩) (ih h.2)
      · exact .plain _ _ _ h.1 h1 (ih h.2)

/-! ## Strings -/

/-- The characters for adjacent escapes. -/
def chars : List Nat → Bytes
  | [] => []
  | [u] => utf8 u
  | u :: w :: us => if SurrogatePair u w then utf8 (ofPair u w) ++ chars us else utf8 u ++ chars (w :: us)

/-- The two first are a pair. -/
def Pairs : List Nat → Prop
  | u :: w :: _ => SurrogatePair u w
  | _ => False

/-- Adjacent escapes in which no surrogate outside a pair stands before a pair. -/
inductive Reg : List Nat → Prop
  | nil : Reg []
  | pair (u w us) : SurrogatePair u w → Reg us → Reg (u :: w :: us)
  | esc (u us) : ¬ Pairs (u :: us) → (Surrogate u → ¬ Pairs us) → Reg us → Reg (u :: us)

theorem runes_eq_chars : ∀ {us : List Nat}, Reg us → runes us = chars us
  | [], _ => rfl
  | [u], _ => by simp [runes, chars]
  | u :: w :: us, h => by
    cases h with
    | pair _ _ _ h1 h2 => simp [runes, chars, h1, runes_eq_chars h2]
    | esc _ _ h1 h2 h3 =>
      have h1 : ¬ SurrogatePair u w := h1
      simp only [runes, chars, if_neg h1]
      split
      · next hs =>
        have h4 : Reg us := by
          cases h3 with
          | pair _ _ _ h => exact absurd h (h2 hs)
          | esc _ _ _ _ h => exact h
        rw [List.append_assoc]
        congr 1
        cases us with
        | nil => simp [chars, runes]
        | cons x us =>
          have : ¬ SurrogatePair w x := h2 hs
          rw [runes_eq_chars h4]
          simp [chars, this]
      · rw [runes_eq_chars h3]

/-- Zero or more escapes. -/
def Run (q : UInt8) (es : Bytes) (us : List Nat) : Prop := (es = [] ∧ us = []) ∨ Escapes q es us

theorem Run.cons {q : UInt8} {e es : Bytes} {u : Nat} {us : List Nat} (h : Escape q e u) (hr : Run q es us) : Escapes q (e ++ es) (u :: us) := by
  rcases hr with ⟨rfl, rfl⟩ | hr
  · rw [List.append_nil]; exact .one _ _ h
  · exact .cons _ _ _ _ h hr

theorem Run.uncons {q : UInt8} {es : Bytes} {u : Nat} {us : List Nat} (hr : Run q es (u :: us)) :
    ∃ e es', Escape q e u ∧ Run q es' us ∧ es = e ++ es' := by
  rcases hr with ⟨_, h⟩ | hr
  · cases h
  · cases hr with
    | one _ _ h => exact ⟨_, [], h, .inl ⟨rfl, rfl⟩, by simp⟩
    | cons t _ ts _ h1 h2 => exact ⟨t, ts, h1, .inr h2, rfl⟩

theorem Run.pairAt {q : UInt8} {es t : Bytes} {us : List Nat} (hr : Run q es us) (hp : Pairs us) : PairAt q (es ++ t) := by
  match us, hp with
  | u :: w :: us, hp =>
    obtain ⟨e, es', h1, h2, rfl⟩ := hr.uncons
    obtain ⟨f, es'', h3, h4, rfl⟩ := h2.uncons
    exact ⟨e, u, f, w, es'' ++ t, h1, h3, hp, by simp⟩

theorem Spec.Denotes.run {strict : Bool} {q : UInt8} {t v : Bytes} (h : Denotes strict q t v) :
    ∃ es us t' v', Run q es us ∧ Stops (· = c! '\\') t' ∧ t = es ++ t' ∧ v = chars us ++ v' ∧
      (strict = true → Reg us ∧ StrBody q t' v') := by
  induction h with
  | nil => exact ⟨[], [], [], [],   .inl ⟨rfl, rfl⟩, (by intro c hc; cases hc), rfl, rfl, fun _ => ⟨.nil, .nil⟩⟩
  | plain c t v h1 h2 h3 h ih =>
    refine ⟨[], [], c :: t, c :: v, .inl ⟨rfl, rfl⟩, ?_, rfl, rfl, fun hs => ⟨.nil, .plain c t v h1 h2 h3 ?_⟩⟩
    · intro d hd; simp at hd; subst hd; exact h2
    · obtain ⟨es, us, t', v', h4, h5, rfl, rfl, h6⟩ := ih
      obtain ⟨h7, h8⟩ := h6 hs
      rw [← runes_eq_chars h7]
      rcases h4 with ⟨rfl, rfl⟩ | h4
      · exact h8
      · exact .escapes _ _ _ _ h4 h5 h8
  | pair e u f w t v h1 h2 h3 h ih =>
    obtain ⟨es, us, t', v', h4, h5, rfl, rfl, h6⟩ := ih
    refine ⟨e ++ (f ++ es), u :: w :: us, t', v', .inr (Run.cons h1 (.inr (Run.cons h2 h4))), h5, by simp, by simp [chars, h3], fun hs => ?_⟩
    exact ⟨.pair _ _ _ h3 (h6 hs).1, (h6 hs).2⟩
  | escape e u t v h1 h2 h3 h ih =>
    obtain ⟨es, us, t', v', h4, h5, rfl, rfl, h6⟩ := ih
    have hr := Run.cons h1 h4
    have hnp : ¬ Pairs (u :: us) := by
      intro hp
      have := Run.pairAt (t := t') (.inr hr) hp
      rw [List.append_assoc] at this
      exact h2 this
    refine ⟨e ++ es, u :: us, t', v', .inr hr, h5, by simp, ?_, fun hs => ⟨.esc _ _ hnp (fun hsu hp => ?_) (h6 hs).1, (h6 hs).2⟩⟩
    · cases us with
      | nil => simp [chars]
      | cons w us =>
        have : ¬ SurrogatePair u w := hnp
        simp [chars, this]
    · exact h3 hs hsu (Run.pairAt h4 hp)

theorem Spec.Denotes.body {q : UInt8} {t v : Bytes} (h : Denotes true q t v) : StrBody q t v := by
  obtain ⟨es, us, t', v', h1, h2, rfl, rfl, h3⟩ := h.run
  obtain ⟨h4, h5⟩ := h3 rfl
  rw [← runes_eq_chars h4]
  rcases h1 with ⟨rfl, rfl⟩ | h1
  · exact h5
  · exact .escapes _ _ _ _ h1 h2 h5

theorem Spec.Escape.det {q : UInt8} (hq : Quote q) {a b s s' : Bytes} {x y : Nat} (ha : Escape q a x) (hb : Escape q b y)
    (h : a ++ s = b ++ s') : x = y ∧ s = s' := by
  obtain ⟨a, rfl⟩ := ha.head
  obtain ⟨b, rfl⟩ := hb.head
  have h1 := (escaped_of hq ha [] s).1
  have h2 := (escaped_of hq hb [] s').1
  simp at h
  rw [h, h2] at h1
  simp at h1
  exact ⟨h1.1.symm, h1.2.2.symm⟩

theorem Run.pairs {q : UInt8} (hq : Quote q) {es t : Bytes} {us : List Nat} (hr : Run q es us) (hs : Spec.Stops (· = c! '\\') t)
    (hp : PairAt q (es ++ t)) : Pairs us := by
  obtain ⟨e, u, f, w, t', h1, h2, h3, h4⟩ := hp
  have stop : ∀ {e s : Bytes} {u : Nat}, Escape q e u → t = e ++ s → False := by
    intro e s u h e'
    obtain ⟨e, rfl⟩ := h.head
    rw [e'] at hs
    exact hs _ rfl rfl
  cases us with
  | nil =>
    rcases hr with ⟨rfl, _⟩ | h
    · exact (stop h1 h4).elim
    · cases h
  | cons u' us =>
    obtain ⟨e', es', h5, h6, rfl⟩ := hr.uncons
    rw [List.append_assoc] at h4
    obtain ⟨rfl, h7⟩ := h5.det hq h1 h4
    cases us with
    | nil =>
      rcases h6 with ⟨rfl, _⟩ | h
      · exact (stop h2 h7).elim
      · cases h
    | cons w' us =>
      obtain ⟨f', es'', h8, _, rfl⟩ := h6.uncons
      rw [List.append_assoc] at h7
      obtain ⟨rfl, _⟩ := h8.det hq h2 h7
      exact h3

theorem Spec.Denotes.of_run {q : UInt8} (hq : Quote q) {t : Bytes} (hs : Stops (· = c! '\\') t) (ht : ∃ v, Denotes false q t v) :
    ∀ (us : List Nat) {es : Bytes}, Run q es us → ∃ v, Denotes false q (es ++ t) v
  | [], _, h => by
    rcases h with ⟨rfl, _⟩ | h
    · exact ht
    · cases h
  | [u], es, h => by
    obtain ⟨e, es', h1, h2, rfl⟩ := h.uncons
    obtain ⟨v, hv⟩ := Spec.Denotes.of_run hq hs ht [] h2
    rw [List.append_assoc]
    refine ⟨_, .escape e u _ v h1 (fun hp => ?_) (by simp) hv⟩
    rw [← List.append_assoc] at hp
    exact Run.pairs hq h hs hp
  | u :: w :: us, es, h => by
    obtain ⟨e, es', h1, h2, rfl⟩ := h.uncons
    by_cases hp : SurrogatePair u w
    · obtain ⟨f, es'', h3, h4, rfl⟩ := h2.uncons
      obtain ⟨v, hv⟩ := Spec.Denotes.of_run hq hs ht us h4
      rw [List.append_assoc, List.append_assoc]
      exact ⟨_, .pair e u f w _ v h1 h3 hp hv⟩
    · obtain ⟨v, hv⟩ := Spec.Denotes.of_run hq hs ht (w :: us) h2
      rw [List.append_assoc]
      refine ⟨_, .escape e u _ v h1 (fun hp' => ?_) (by simp) hv⟩
      rw [← List.append_assoc] at hp'
      exact hp (Run.pairs hq h hs hp')

/-- What can be read has a meaning. -/
theorem Spec.StrBody.denotes {q : UInt8} (hq : Quote q) {t v : Bytes} (h : StrBody q t v) : ∃ v', Denotes false q t v' := by
  induction h with
  | nil => exact ⟨_, .nil⟩
  | plain c t v h1 h2 h3 _ ih => obtain ⟨v', h⟩ := ih; exact ⟨_, .plain c t v' h1 h2 h3 h⟩
  | escapes es us t v h1 h2 _ ih => exact Denotes.of_run hq h2 ih us (.inr h1)

theorem hexDigit_hex {n : Nat} (h : n < 16) : Hex (hexDigit n) n := by
  unfold hexDigit
  split
  · next h => exact .digit n h
  · next h' =>
    have e1 : 87 + n = 97 + (n - 10) := by omega
    have := Hex.lower (n - 10) (by omega)
    rw [e1]
    have e2 : 10 + (n - 10) = n := by omega
    rwa [e2] at this

theorem utf8_ascii {c : UInt8} (h : c < 0x80) : utf8 c.toNat = [c] := by
  have hc : c.toNat < 128 := by simpa [UInt8.lt_iff_toNat_lt] using h
  have key : ∀ n : Fin 128, utf8 n.val = [UInt8.ofNat n.val] := by decide
  have := key ⟨c.toNat, hc⟩
  simpa using this

theorem notPair {q : UInt8} (hq : Quote q) {e t : Bytes} {u : Nat} (h : Escape q e u) (hu : ¬ Surrogate u) : ¬ PairAt q (e ++ t) := by
  rintro ⟨e', u', f, w, t', h1, _, h3, h4⟩
  obtain ⟨rfl, _⟩ := h.det hq h1 h4
  exact hu ⟨h3.1, by have := h3.2.1; omega⟩

theorem writeStr_denotes {q : UInt8} (hq : Quote q) (v : Bytes) : Denotes true q (v.flatMap (writeByte q)) v := by
  induction v with
  | nil => exact .nil
  | cons c v ih =>
    rw [List.flatMap_cons]
    have esc : ∀ {e : Bytes}, Escape q e c.toNat → c < 0x80 → Denotes true q (e ++ v.flatMap (writeByte q)) (c :: v) := by
      intro e he hc
      have hc' : c.toNat < 128 := by simpa [UInt8.lt_iff_toNat_lt] using hc
      have hs : ¬ Surrogate c.toNat := by rintro ⟨h, _⟩; omega
      have := Denotes.escape (strict := true) e c.toNat _ v he (notPair hq he hs) (fun _ h => absurd h hs) ih
      rwa [utf8_ascii hc] at this
    unfold writeByte
    split
    · next h =>
      rcases h with rfl | rfl
      · exact esc .quote (by rcases hq with rfl | rfl <;> decide)
      · exact esc .backslash (by decide)
    · next h =>
      split
      · next h1 =>
        have hc : c.toNat < 32 := by simpa [UInt8.lt_iff_toNat_lt] using h1
        refine esc ?_ (by simp only [UInt8.lt_iff_toNat_lt]; simp; omega)
        have := Escape.unicode (q := q) (c! '0') (c! '0') (hexDigit (c.toNat / 16)) (hexDigit (c.toNat % 16)) 0 0 (c.toNat / 16)
          (c.toNat % 16) (.digit 0 (by omega)) (.digit 0 (by omega)) (hexDigit_hex (by omega)) (hexDigit_hex (by omega))
        have e : 4096 * 0 + 256 * 0 + 16 * (c.toNat / 16) + c.toNat % 16 = c.toNat := by omega
        rw [e] at this
        exact this
      · next h1 =>
        refine .plain c _ v (fun e => h (.inl e)) (fun e => h (.inr e)) ?_ ih
        simp only [UInt8.le_iff_toNat_le, UInt8.lt_iff_toNat_lt] at h1 ⊢
        omega

/-! ## Paths and expressions with one literal -/

theorem Spec.GPath.select_inv {ts : List Token} {v : Val} (h : GPath valid ts [⟨.select, [v]⟩]) :
    ∃ us, GSub valid us (.key v) ∧ ts = .p (c! '$') :: .p (c! '[') :: (us ++ [.p (c! ']')]) := by
  obtain ⟨us, h, rfl⟩ := h
  generalize hp : [(⟨.select, [v]⟩ : Step)] = p at h
  cases h with
  | nil => cases hp
  | cons ts s us p h1 h2 =>
    cases hp
    cases h2
    rw [List.append_nil]
    generalize hs : (⟨.select, [v]⟩ : Step) = s at h1
    cases h1 with
    | member ts m h => cases m <;> simp [memberKind, StepKind.step] at hs
    | nestMember ts m h => cases m <;> simp [memberKind, StepKind.step] at hs
    | sub ts k h =>
      cases k <;> simp [StepKind.step] at hs
      subst hs
      exact ⟨ts, h, rfl⟩
    | nestSub ts k h => cases k <;> simp [StepKind.step] at hs

theorem gpath_select {us : List Token} {v : Val} (h : GSub valid us (.key v)) :
    GPath valid (.p (c! '$') :: .p (c! '[') :: (us ++ [.p (c! ']')])) [⟨.select, [v]⟩] :=
  ⟨_, .cons _ _ _ _ (.sub _ _ h) .nil, by simp⟩

theorem Spec.Stops.nil (p : UInt8 → Prop) : Stops p [] := by intro c hc; cases hc

theorem Spec.PathWord.atEnd {lx : Lexeme} {w next : Bytes} (h : PathWord lx w next) : PathWord lx w [] := by
  cases h with
  | punct c _ h => exact .punct c _ h
  | dot _ h => exact .dot _ (.nil _)
  | nest => exact .nest _
  | filter => exact .filter _
  | str w v _ h => exact .str w v _ h
  | int _ _ h1 h2 h3 => exact .int _ _ h1 (.nil _) h3
  | neg w ds _ h1 h2 h3 h4 => exact .neg w ds _ h1 h2 (.nil _) h4
  | name c w _ h1 h2 h3 => exact .name c w _ h1 h2 (.nil _)

theorem Spec.ExprWord.atEnd {lx : Lexeme} {w next : Bytes} (h : ExprWord pf lx w next) : ExprWord pf lx w [] := by
  cases h with
  | punct c _ h => exact .punct c _ h
  | alone c d _ h1 h2 => exact .alone c d _ h1 (.nil _)
  | str w v _ h => exact .str w v _ h
  | int _ _ h1 h2 h3 => exact .int _ _ h1 (.nil _) h3
  | real _ f _ h1 h2 =>
    refine .real _ f _ ?_ h2
    cases h1 with
    | mk ds fs ex _ a1 a2 a3 a4 a5 => exact .mk ds fs ex _ a1 a2 a3 (.nil _) (fun _ => .nil _)
  | name c w _ h1 h2 h3 => exact .name c w _ h1 h2 (.nil _)
  | _ => constructor

/-- A token before white space and a byte that does not belong to it. -/
theorem Spec.PathWord.before {lx : Lexeme} {w g next : Bytes} {c : UInt8} (h : PathWord lx w []) (hg : White g) (hc : Neutral c) :
    PathWord lx w (g ++ c :: next) := by
  cases g with
  | nil => exact h.neutral hc _
  | cons d g => exact h.neutral (neutral_space (hg d (by simp))) _

theorem punct_inv {c : UInt8} {w next : Bytes} (h : PathWord (.plain (.ch c)) w next) : w = [c] := by
  generalize hl : Lexeme.plain (.ch c) = lx at h
  cases h <;> simp [Lexeme.plain] at hl <;> simp [hl]

/-- A token alone in brackets. -/
theorem written_select {lx : Lexeme} {text : Bytes} :
    Written pf [.p (c! '$'), .p (c! '['), .path lx, .p (c! ']')] text ↔
      ∃ w, PathWord lx w [] ∧ Spaced [b! "$", b! "[", w, b! "]"] text := by
  constructor
  · intro h
    cases h with
    | cons _ _ g1 w1 n1 hg1 hw1 h =>
    cases h with
    | cons _ _ g2 w2 n2 hg2 hw2 h =>
    cases h with
    | cons _ _ g3 w3 n3 hg3 hw3 h =>
    cases h with
    | cons _ _ g4 w4 n4 hg4 hw4 h =>
    cases h with
    | nil g5 hg5 =>
    cases hw1 with | path _ _ _ hw1 =>
    cases hw2 with | path _ _ _ hw2 =>
    cases hw3 with | path _ _ _ hw3 =>
    cases hw4 with | path _ _ _ hw4 =>
    obtain rfl := punct_inv hw1
    obtain rfl := punct_inv hw2
    obtain rfl := punct_inv hw4
    exact ⟨w3, hw3.atEnd, .cons _ _ _ _ hg1 (.cons _ _ _ _ hg2 (.cons _ _ _ _ hg3 (.cons _ _ _ _ hg4 (.nil _ hg5))))⟩
  · rintro ⟨w, hw, h⟩
    cases h with
    | cons _ _ g1 n1 hg1 h =>
    cases h with
    | cons _ _ g2 n2 hg2 h =>
    cases h with
    | cons _ _ g3 n3 hg3 h =>
    cases h with
    | cons _ _ g4 n4 hg4 h =>
    cases h with
    | nil g5 hg5 =>
    refine .cons _ _ _ _ _ hg1 (.path _ _ _ (.punct _ _ (by decide))) ?_
    refine .cons _ _ _ _ _ hg2 (.path _ _ _ (.punct _ _ (by decide))) ?_
    refine .cons _ _ _ _ _ hg3 (.path _ _ _ (hw.before hg4 (neutral_of (by decide)))) ?_
    exact .cons _ _ _ _ _ hg4 (.path _ _ _ (.punct _ _ (by decide))) (.nil _ hg5)

theorem strWord {w v next : Bytes} : PathWord (strTok v) w next ↔ StrLit w v := by
  constructor
  · intro h
    generalize hl : strTok v = lx at h
    cases h <;> simp [Lexeme.plain] at hl
    next h => subst hl; exact h
  · exact .str _ _ _

theorem strWordX {w v next : Bytes} : ExprWord pf (strTok v) w next ↔ StrLit w v := by
  constructor
  · intro h
    generalize hl : strTok v = lx at h
    cases h <;> simp [Lexeme.plain] at hl
    next h => subst hl; exact h
  · exact .str _ _ _

/-- The integers of paths. -/
def PathInt (w : Bytes) (n : Int64) : Prop :=
  (Digits w ∧ decimal w < 2 ^ 63 ∧ n = Int64.ofNat (decimal w)) ∨
    (∃ g ds, White g ∧ Digits ds ∧ decimal ds < 2 ^ 63 - 1 ∧ w = c! '-' :: (g ++ ds) ∧ n = -Int64.ofNat (decimal ds))

theorem intWord {w : Bytes} {n : Int64} : PathWord (intTok n) w [] ↔ PathInt w n := by
  constructor
  · intro h
    generalize hl : intTok n = lx at h
    generalize hn : ([] : Bytes) = next at h
    cases h with
    | int _ _ h1 h2 h3 => simp at hl; exact .inl ⟨h1, h3, hl⟩
    | neg g ds _ h1 h2 h3 h4 => simp at hl; exact .inr ⟨g, ds, h1, h2, h4, rfl, hl⟩
    | _ => simp [Lexeme.plain] at hl
  · rintro (⟨h1, h2, rfl⟩ | ⟨g, ds, h1, h2, h3, rfl, rfl⟩)
    · exact .int _ _ h1 (.nil _) h2
    · exact .neg _ _ _ h1 h2 (.nil _) h3

theorem parsePath_str {text v : Bytes} :
    parsePath env text = .ok [⟨.select, [.str v]⟩] ↔ ∃ w, StrLit w v ∧ Spaced [b! "$", b! "[", w, b! "]"] text := by
  have hs : parsePath env text = .ok [⟨.select, [.str v]⟩] ↔
      Written env.parseFloat [.p (c! '$'), .p (c! '['), .path (strTok v), .p (c! ']')] text := by
    rw [parsePath_iff]
    constructor
    · rintro ⟨ts, h1, h2⟩
      obtain ⟨us, h3, rfl⟩ := h2.select_inv
      cases h3 with
      | one _ _ h3 => cases h3 with | str => exact h1
    · intro h; exact ⟨_, h, gpath_select (.one _ _ (.str v))⟩
  rw [hs, written_select]
  simp only [strWord]

theorem parsePath_int {text : Bytes} {n : Int64} :
    parsePath env text = .ok [⟨.select, [.int n]⟩] ↔ ∃ w, PathInt w n ∧ Spaced [b! "$", b! "[", w, b! "]"] text := by
  have hs : parsePath env text = .ok [⟨.select, [.int n]⟩] ↔
      Written env.parseFloat [.p (c! '$'), .p (c! '['), .path (intTok n), .p (c! ']')] text := by
    rw [parsePath_iff]
    constructor
    · rintro ⟨ts, h1, h2⟩
      obtain ⟨us, h3, rfl⟩ := h2.select_inv
      cases h3 with
      | one _ _ h3 => cases h3 with | int => exact h1
    · intro h; exact ⟨_, h, gpath_select (.one _ _ (.int n))⟩
  rw [hs, written_select]
  simp only [intWord]

/-! ## Texts that are rejected -/

theorem GSub_first {ts : List Token} {k : StepKind} (h : GSub valid ts k) : ∃ lx us, ts = .path lx :: us := by
  have bound : ∀ {ts b}, GBound? valid ts b → ts = [] ∨ ∃ lx us, ts = .path lx :: us := by
    intro ts b h
    cases h with
    | none => exact .inl rfl
    | some _ _ h => obtain ⟨lx, us, rfl, _⟩ := GBound_first h; exact .inr ⟨_, _, rfl⟩
  have slice : ∀ {ts s}, GSlice valid ts s → ∃ lx us, ts = .path lx :: us := by
    intro ts s h
    cases h with
    | two ts a us b h _ => rcases bound h with rfl | ⟨lx, us, rfl⟩ <;> exact ⟨_, _, rfl⟩
    | three ts a us b vs c h _ _ => rcases bound h with rfl | ⟨lx, us, rfl⟩ <;> exact ⟨_, _, rfl⟩
  have elem : ∀ {ts v}, GElem valid ts v → ∃ lx us, ts = .path lx :: us := by
    intro ts v h
    cases h with
    | slice _ _ h => exact slice h
    | _ => exact ⟨_, _, rfl⟩
  cases h with
  | one _ _ h => exact elem h
  | union _ _ h _ =>
    cases h with
    | one _ _ h => exact elem h
    | cons _ _ _ _ h _ => obtain ⟨lx, us, rfl⟩ := elem h; exact ⟨_, _, rfl⟩
  | _ => exact ⟨_, _, rfl⟩

theorem GStep_first {ts : List Token} {s : Step} (h : GStep valid ts s) : ∃ lx us, ts = .path lx :: us ∧
    (lx = .plain (.ch (c! '[')) → ∃ k vs, GSub valid vs k ∧ us = vs ++ [.p (c! ']')] ∧ s = k.step true false) := by
  cases h with
  | member ts m h => exact ⟨_, _, rfl, by simp [Lexeme.plain]⟩
  | nestMember ts m h => exact ⟨_, _, rfl, by simp [Lexeme.plain]⟩
  | sub ts k h => exact ⟨_, _, rfl, fun _ => ⟨k, ts, h, rfl, rfl⟩⟩
  | nestSub ts k h => exact ⟨_, _, rfl, by simp [Lexeme.plain]⟩

/-- The tokens of a path with a subscript. -/
theorem parsePath_bracket {x : Bytes} {p : Path} (h : parsePath env (b! "$[" ++ x) = .ok p) :
    ∃ k vs us p', GSub env.reValid vs k ∧ p = k.step true false :: p' ∧ GSteps env.reValid us p' ∧
      Written env.parseFloat (vs ++ .p (c! ']') :: us) x := by
  obtain ⟨ts, h1, us, h2, rfl⟩ := parsePath_iff.mp h
  have h3 := (Written.path_inv (g := []) (w := b! "$") (next := c! '[' :: x) h1 White.nil (.punct _ _ (by decide))).2
  cases h2 with
  | nil =>
    have := h3.nil_inv (c! '[') (by simp)
    simp [Space] at this
  | cons ts s us p h4 h5 =>
    obtain ⟨lx, vs, rfl, h6⟩ := GStep_first h4
    obtain ⟨rfl, h7⟩ := Written.path_inv (g := []) (w := b! "[") (next := x) h3 White.nil (.punct _ _ (by decide))
    obtain ⟨k, vs, h8, rfl, rfl⟩ := h6 rfl
    refine ⟨k, vs, us, p, h8, rfl, h5, ?_⟩
    simpa using h7

theorem parsePath_word {x : Bytes} {p : Path} (h : parsePath env (b! "$[" ++ x) = .ok p) :
    ∃ lx g w next, White g ∧ PathWord lx w next ∧ x = g ++ (w ++ next) := by
  obtain ⟨k, vs, us, p', h1, _, _, h2⟩ := parsePath_bracket h
  obtain ⟨lx, vs, rfl⟩ := GSub_first h1
  cases h2 with
  | cons _ _ g w next hg hw _ =>
    cases hw with | path _ _ _ hw => exact ⟨lx, g, w, next, hg, hw, rfl⟩

theorem white_head {g x y : Bytes} {c : UInt8} (hg : White g) (hc : ¬ Space c) (h : g ++ x = c :: y) : g = [] ∧ x = c :: y := by
  cases g with
  | nil => exact ⟨rfl, h⟩
  | cons d g => simp at h; exact absurd (hg d (by simp)) (by rw [h.1]; exact hc)

theorem span_unique {p : UInt8 → Prop} : ∀ {a b s s' : Bytes}, All p a → All p b → Spec.Stops p s → Spec.Stops p s' → a ++ s = b ++ s' →
    a = b ∧ s = s'
  | [], [], _, _, _, _, _, _, h => ⟨rfl, h⟩
  | [], d :: b, s, _, _, hb, hs, _, h => by
    simp at h
    exact absurd (hb d (by simp)) (hs d (by rw [h]; rfl))
  | c :: a, [], _, s', ha, _, _, hs', h => by
    simp at h
    exact absurd (ha c (by simp)) (hs' c (by rw [← h]; rfl))
  | c :: a, d :: b, s, s', ha, hb, hs, hs', h => by
    simp at h
    obtain ⟨e1, e2⟩ := span_unique (fun x hx => ha x (by simp [hx])) (fun x hx => hb x (by simp [hx])) hs hs' h.2
    exact ⟨by rw [h.1, e1], e2⟩

theorem Spec.StrLit.head {w v : Bytes} (h : StrLit w v) : ∃ q t, Quote q ∧ w = q :: (t ++ [q]) ∧ StrBody q t v := by
  cases h with
  | single t v h => exact ⟨_, t, .inr rfl, rfl, h⟩
  | double t v h => exact ⟨_, t, .inl rfl, rfl, h⟩

theorem Spec.Letter.not_quote {c : UInt8} (h : Letter c) : ¬ Quote c := by
  rintro (rfl | rfl) <;> revert h <;> simp [Letter] <;> decide
theorem Spec.Digit.not_quote {c : UInt8} (h : Digit c) : ¬ Quote c := by
  rintro (rfl | rfl) <;> revert h <;> simp [Digit]
theorem Spec.Digit.not_letter {c : UInt8} (h : Digit c) : ¬ Letter c := by
  intro h'
  have := isDigit_of_letter h'
  rw [isDigit_iff.mpr h] at this
  cases this
theorem Quote.not_space {q : UInt8} (h : Quote q) : ¬ Space q := by
  rcases h with rfl | rfl <;> simp [Space]

/-- A token that begins with a digit. -/
theorem pathWord_digit {lx : Lexeme} {c : UInt8} {w next y : Bytes} (h : PathWord lx w next) (hc : Digit c) (e : w ++ next = c :: y) :
    Digits w ∧ Spec.Stops Digit next ∧ decimal w < 2 ^ 63 ∧ lx = intTok (Int64.ofNat (decimal w)) := by
  cases h with
  | int _ _ h1 h2 h3 => exact ⟨h1, h2, h3, rfl⟩
  | punct c' _ h' =>
    exfalso
    simp at e
    rw [e.1] at h'
    revert hc
    simp at h'
    rcases h' with rfl | rfl | rfl | rfl | rfl | rfl | rfl | rfl <;> simp [Digit]
  | str w v _ h =>
    obtain ⟨q, t, hq, rfl, _⟩ := h.head
    simp at e
    exact absurd hq (by rw [e.1]; exact hc.not_quote)
  | name c' w _ h1 h2 h3 =>
    simp at e
    exact absurd h1 (by rw [e.1]; exact hc.not_letter)
  | _ =>
    simp at e
    exfalso
    revert hc
    rw [← e.1]
    simp [Digit]

/-- A token that begins with a minus sign. -/
theorem pathWord_minus {lx : Lexeme} {w next y : Bytes} (h : PathWord lx w next) (e : w ++ next = c! '-' :: y) :
    ∃ g ds, w = c! '-' :: (g ++ ds) ∧ White g ∧ Digits ds ∧ Spec.Stops Digit next ∧ decimal ds < 2 ^ 63 - 1 ∧
      lx = intTok (-Int64.ofNat (decimal ds)) := by
  cases h with
  | neg g ds _ h1 h2 h3 h4 => exact ⟨g, ds, rfl, h1, h2, h3, h4, rfl⟩
  | int _ _ h1 h2 h3 =>
    exfalso
    cases w with
    | nil => exact h1.1 rfl
    | cons d w =>
      simp at e
      have := h1.2 d (by simp)
      rw [e.1] at this
      revert this
      simp [Digit]
  | punct c' _ h' =>
    exfalso
    simp at e
    rw [e.1] at h'
    simp at h'
  | str w v _ h =>
    obtain ⟨q, t, hq, rfl, _⟩ := h.head
    simp at e
    rw [e.1] at hq
    rcases hq with hq | hq <;> simp at hq
  | name c' w _ h1 h2 h3 =>
    simp at e
    rw [e.1] at h1
    simp [Letter] at h1
  | _ =>
    simp at e

/-- A token that begins with a quote. -/
theorem pathWord_quote {lx : Lexeme} {q : UInt8} {w next y : Bytes} (h : PathWord lx w next) (hq : Quote q) (e : w ++ next = q :: y) :
    ∃ t v, StrBody q t v ∧ w = q :: (t ++ [q]) ∧ lx = strTok v := by
  cases h with
  | str w v _ h =>
    obtain ⟨q', t, hq', rfl, h'⟩ := h.head
    simp at e
    obtain ⟨rfl, _⟩ := e
    exact ⟨t, v, h', rfl, rfl⟩
  | int _ _ h1 h2 h3 =>
    exfalso
    cases w with
    | nil => exact h1.1 rfl
    | cons d w =>
      simp at e
      have := h1.2 d (by simp)
      rw [e.1] at this
      exact this.not_quote hq
  | punct c' _ h' =>
    exfalso
    simp at e
    rw [e.1] at h'
    rcases hq with rfl | rfl <;> simp at h'
  | name c' w _ h1 h2 h3 =>
    simp at e
    rw [e.1] at h1
    exact absurd hq h1.not_quote
  | _ =>
    simp at e
    exfalso
    rcases hq with rfl | rfl <;> simp at e

theorem exprWord_digit {lx : Lexeme} {c : UInt8} {w next y : Bytes} (h : ExprWord pf lx w next) (hc : Digit c) (e : w ++ next = c :: y) :
    (Digits w ∧ Spec.Stops (fun c => Digit c ∨ c = c! '.') next ∧ decimal w < 2 ^ 63 ∧ lx = intTok (Int64.ofNat (decimal w))) ∨
      (∃ f, RealText w next ∧ pf w = some f ∧ lx = realTok f) := by
  cases h with
  | int _ _ h1 h2 h3 => exact .inl ⟨h1, h2, h3, rfl⟩
  | real _ f _ h1 h2 => exact .inr ⟨f, h1, h2, rfl⟩
  | punct c' _ h' =>
    exfalso
    simp at e
    rw [e.1] at h'
    revert hc
    simp at h'
    rcases h' with rfl | rfl | rfl | rfl | rfl | rfl | rfl | rfl | rfl | rfl | rfl | rfl | rfl | rfl <;> simp [Digit]
  | alone c' d _ h' =>
    exfalso
    simp at e
    rw [e.1] at h'
    revert hc
    rcases h' with ⟨rfl, _⟩ | ⟨rfl, _⟩ | ⟨rfl, _⟩ | ⟨rfl, _⟩ | ⟨rfl, _⟩ | ⟨rfl, _⟩ <;> simp [Digit]
  | str w v _ h =>
    obtain ⟨q, t, hq, rfl, _⟩ := h.head
    simp at e
    exact absurd hq (by rw [e.1]; exact hc.not_quote)
  | name c' w _ h1 h2 h3 =>
    simp at e
    exact absurd h1 (by rw [e.1]; exact hc.not_letter)
  | _ =>
    simp at e
    exfalso
    revert hc
    rw [← e.1]
    simp [Digit]

theorem exprWord_quote {lx : Lexeme} {q : UInt8} {w next y : Bytes} (h : ExprWord pf lx w next) (hq : Quote q) (e : w ++ next = q :: y) :
    ∃ t v, StrBody q t v ∧ w = q :: (t ++ [q]) ∧ lx = strTok v := by
  cases h with
  | str w v _ h =>
    obtain ⟨q', t, hq', rfl, h'⟩ := h.head
    simp at e
    obtain ⟨rfl, _⟩ := e
    exact ⟨t, v, h', rfl, rfl⟩
  | int _ _ h1 h2 h3 =>
    exfalso
    cases w with
    | nil => exact h1.1 rfl
    | cons d w =>
      simp at e
      have := h1.2 d (by simp)
      rw [e.1] at this
      exact this.not_quote hq
  | real _ f _ h1 h2 =>
    exfalso
    cases h1 with
    | mk ds fs ex _ hds =>
      cases ds with
      | nil => exact hds.1 rfl
      | cons d w =>
        simp at e
        have := hds.2 d (by simp)
        rw [e.1] at this
        exact this.not_quote hq
  | punct c' _ h' =>
    exfalso
    simp at e
    rw [e.1] at h'
    rcases hq with rfl | rfl <;> simp at h'
  | alone c' d _ h' =>
    exfalso
    simp at e
    rw [e.1] at h'
    rcases hq with rfl | rfl <;> simp at h'
  | name c' w _ h1 h2 h3 =>
    simp at e
    rw [e.1] at h1
    exact absurd hq h1.not_quote
  | _ =>
    simp at e
    exfalso
    rcases hq with rfl | rfl <;> simp at e

/-- An expression in a filter. -/
theorem parsePath_filter {ts : List Token} {text : Bytes} {e : Expr} (h1 : Written env.parseFloat ts text)
    (h2 : GExpr env.reValid 0 ts e) : parsePath env (b! "$[?(" ++ (text ++ b! ")]")) = .ok [⟨.filter, [.expr e]⟩] := by
  rw [parsePath_iff]
  refine ⟨.p (c! '$') :: .p (c! '[') :: .path (.plain .filter) :: (ts ++ [.x (c! ')'), .p (c! ']')]), ?_,
    _, .cons _ _ _ _ (.sub _ (.filter e) (.filter _ e ⟨ts, h2, rfl⟩)) .nil, by simp⟩
  refine .cons _ _ [] (b! "$") (b! "[?(" ++ _) White.nil (.path _ _ _ (.punct _ _ (by decide))) ?_
  refine .cons _ _ [] (b! "[") (b! "?(" ++ _) White.nil (.path _ _ _ (.punct _ _ (by decide))) ?_
  refine .cons _ _ [] (b! "?(") _ White.nil (.path _ _ _ (.filter _)) ?_
  refine h1.join (c := c! ')') (b := b! "]") ?_ (neutral_of (by decide)) (by intro t ht; cases ht; rfl)
  refine .cons _ _ [] (b! ")") (b! "]") White.nil (.expr _ _ _ (.punct _ _ (by decide))) ?_
  exact .cons _ _ [] (b! "]") [] White.nil (.path _ _ _ (.punct _ _ (by decide))) (.nil _ White.nil)

/-- A token alone. -/
theorem written_one {lx : Lexeme} {w : Bytes} (h : ExprWord pf lx w []) : Written pf [.expr lx] w := by
  have := Written.cons (.expr lx) [] [] w [] White.nil (.expr _ _ _ h) (.nil _ White.nil)
  simpa using this

theorem gatom_expr {ts : List Token} {e : Expr} (h : GAtom valid ts e) : GExpr valid 0 ts e := .unary _ _ _ (.primary _ _ (.atom _ _ h))

theorem lit_read {w v : Bytes} (h : StrLit w v) :
    parsePath env (b! "$[" ++ (w ++ b! "]")) = .ok [⟨.select, [.str v]⟩] ∧ parseScriptExpression env w = .ok (.str v) := by
  refine ⟨parsePath_str.mpr ⟨w, h, ?_⟩, parseScript_written (written_one (strWordX.mpr h)) (gatom_expr (.str v))⟩
  have h1 := Spaced.cons w [b! "]"] [] _ White.nil (.cons (b! "]") [] [] [] White.nil (.nil _ White.nil))
  have h2 := Spaced.cons (b! "$") _ [] _ White.nil (.cons (b! "[") _ [] _ White.nil h1)
  simpa using h2

theorem spaced3 (w : Bytes) : Spaced [b! "$", b! "[", w, b! "]"] (b! "$[" ++ (w ++ b! "]")) := by
  have h1 := Spaced.cons w [b! "]"] [] _ White.nil (.cons (b! "]") [] [] [] White.nil (.nil _ White.nil))
  have h2 := Spaced.cons (b! "$") _ [] _ White.nil (.cons (b! "[") _ [] _ White.nil h1)
  simpa using h2

theorem int_read {ds : Bytes} (hd : Digits ds) (hlt : decimal ds < 2 ^ 63) :
    parsePath env (b! "$[" ++ (ds ++ b! "]")) = .ok [⟨.select, [.int (Int64.ofNat (decimal ds))]⟩] ∧
    parsePath env (b! "$." ++ ds) = .ok [⟨.member, [.int (Int64.ofNat (decimal ds))]⟩] ∧
    parseScriptExpression env ds = .ok (.int (Int64.ofNat (decimal ds))) := by
  refine ⟨parsePath_int.mpr ⟨ds, .inl ⟨hd, hlt, rfl⟩, spaced3 ds⟩, ?_, ?_⟩
  · rw [parsePath_iff]
    refine ⟨[.p (c! '$'), .p (c! '.'), .path (intTok _)], ?_, _, .cons _ _ _ _ (.member _ _ (.int _)) .nil, rfl⟩
    refine .cons _ _ [] (b! "$") (c! '.' :: ds) White.nil (.path _ _ _ (.punct _ _ (by decide))) ?_
    refine .cons _ _ [] (b! ".") ds White.nil (.path _ _ _ (.dot _ ?_)) ?_
    · intro c hc
      cases ds with
      | nil => cases hc
      | cons d ds =>
        simp at hc
        subst hc
        have := hd.2 d (by simp)
        rintro rfl
        simp [Digit] at this
    · have := Written.cons (pf := env.parseFloat) (.path (intTok (Int64.ofNat (decimal ds)))) [] [] ds [] White.nil (.path _ _ _ (.int ds [] hd (.nil _) hlt)) (.nil _ White.nil)
      simpa using this
  · exact parseScript_written (written_one (.int ds [] hd (.nil _) hlt)) (gatom_expr (.int _))

/-- A member after a dot. -/
theorem parsePath_dot {x : Bytes} {p : Path} (hx : Spec.Stops (· = c! '.') x) (h : parsePath env (b! "$." ++ x) = .ok p) :
    ∃ lx g w next, White g ∧ PathWord lx w next ∧ x = g ++ (w ++ next) := by
  obtain ⟨ts, h1, us, h2, rfl⟩ := parsePath_iff.mp h
  have h3 := (Written.path_inv (g := []) (w := b! "$") (next := c! '.' :: x) h1 White.nil (.punct _ _ (by decide))).2
  cases h2 with
  | nil =>
    have := h3.nil_inv (c! '.') (by simp)
    simp [Space] at this
  | cons ts s us p h4 h5 =>
    obtain ⟨lx, vs, rfl, h6⟩ := GStep_first h4
    obtain ⟨rfl, h7⟩ := Written.path_inv (g := []) (w := b! ".") (next := x) h3 White.nil (.dot _ hx)
    generalize hts : Token.path (.plain (.ch (c! '.'))) :: vs = ts at h4
    cases h4 with
    | member ts m h8 =>
      cases hts
      obtain ⟨lx, us', rfl, _⟩ := GMember_first h8
      cases h7 with
      | cons _ _ g w next hg hw _ =>
        cases hw with | path _ _ _ hw => exact ⟨lx, g, w, next, hg, hw, rfl⟩
    | nestMember ts m h8 => simp [Lexeme.plain] at hts
    | sub ts k h8 => simp [Lexeme.plain] at hts
    | nestSub ts k h8 => simp [Lexeme.plain] at hts

theorem digits_small {lx : Lexeme} {g w next ds s : Bytes} (hg : White g) (hw : PathWord lx w next) (hd : Digits ds) (hs : Spec.Stops Digit s)
    (e : ds ++ s = g ++ (w ++ next)) : decimal ds < 2 ^ 63 := by
  cases ds with
  | nil => exact absurd rfl hd.1
  | cons d ds =>
    have hd' := hd.2 d (by simp)
    obtain ⟨rfl, e1⟩ := white_head hg hd'.not_space e.symm
    obtain ⟨h1, h2, h3, _⟩ := pathWord_digit hw hd' e1
    obtain ⟨rfl, _⟩ := span_unique (p := Digit) h1.2 hd.2 h2 hs e1
    exact h3

theorem neg_small {lx : Lexeme} {g w next ds s : Bytes} (hg : White g) (hw : PathWord lx w next) (hd : Digits ds) (hs : Spec.Stops Digit s)
    (e : c! '-' :: (ds ++ s) = g ++ (w ++ next)) : decimal ds < 2 ^ 63 - 1 := by
  obtain ⟨rfl, e1⟩ := white_head hg (by simp [Space]) e.symm
  obtain ⟨g', ds', rfl, h1, h2, h3, h4, _⟩ := pathWord_minus hw e1
  simp at e1
  cases ds with
  | nil => exact absurd rfl hd.1
  | cons d ds =>
    have hd' := hd.2 d (by simp)
    obtain ⟨rfl, e2⟩ := white_head h1 hd'.not_space e1
    obtain ⟨rfl, _⟩ := span_unique (p := Digit) h2.2 hd.2 h3 hs e2
    exact h4

theorem script_small {ds : Bytes} {e : Expr} (hd : Digits ds) (h : parseScriptExpression env ds = .ok e) : decimal ds < 2 ^ 63 := by
  obtain ⟨ts, h1, h2⟩ := parseScript_inv h
  obtain ⟨lx, us, rfl, _⟩ := GExpr_first h1
  rcases h2 with h2 | ⟨_, q, u, _, h3, _⟩
  · cases ds with
    | nil => exact absurd rfl hd.1
    | cons d ds =>
    have hd' := hd.2 d (by simp)
    generalize hx : d :: ds = x at h2
    cases h2 with
    | cons _ _ g w next hg hw _ =>
      obtain ⟨rfl, e1⟩ := white_head hg hd'.not_space hx.symm
      cases hw with
      | expr _ _ _ hw =>
        rcases exprWord_digit hw hd' e1 with ⟨h3, h4, h5, _⟩ | ⟨f, h3, _⟩
        · have := span_unique (p := Digit) (b := d :: ds) (s' := []) h3.2 hd.2 (fun c hc h => h4 c hc (.inl h)) (.nil _) (by rw [e1]; simp)
          rw [this.1] at h5; rw [← hx]; exact h5
        · cases h3 with
          | mk a b c _ _ _ _ _ =>
            have hdot : Digit (c! '.') := hd.2 _ (by rw [← e1]; simp)
            simp [Digit] at hdot
  · have := hd.2 (c! '\\') (by rw [h3]; simp)
    simp [Digit] at this

theorem written_re {t v : Bytes} (h : ReBody t v) : Written pf [.x (c! '/'), .regexp v] (c! '/' :: (t ++ b! "/")) := by
  refine .cons _ _ [] (b! "/") _ White.nil (.expr _ _ _ (.punct _ _ (by decide))) ?_
  have := Written.cons (pf := pf) (.regexp v) [] [] (t ++ b! "/") [] rfl (.regexp t v [] h) (.nil _ White.nil)
  simpa using this

theorem GAtom_slash {us : List Token} {e : Expr} (h : GAtom valid (.x (c! '/') :: us) e) : ∃ s, us = [.regexp s] ∧ valid s = true := by
  generalize hts : Token.x (c! '/') :: us = ts at h
  cases h <;> simp [Lexeme.plain] at hts
  next s hv => exact ⟨s, hts, hv⟩

theorem GPrimary_slash : ∀ {ts : List Token} {e : Expr}, GPrimary valid ts e → ∀ {us}, ts = .x (c! '/') :: us →
    ∃ s vs, us = .regexp s :: vs ∧ valid s = true
  | _, _, .atom _ _ h => by rintro rfl; obtain ⟨s, rfl, hv⟩ := GAtom_slash h; exact ⟨s, [], rfl, hv⟩
  | _, _, .call ts f ws es h _ => by
    intro e
    obtain ⟨lx, vs, e1, _⟩ := GPrimary_first h
    rw [e1] at e
    simp at e
    obtain ⟨rfl, rfl⟩ := e
    obtain ⟨s, vs, rfl, hv⟩ := GPrimary_slash h e1
    exact ⟨s, _, rfl, hv⟩
  | _, _, .index ts e' ws i h _ => by
    intro e
    obtain ⟨lx, vs, e1, _⟩ := GPrimary_first h
    rw [e1] at e
    simp at e
    obtain ⟨rfl, rfl⟩ := e
    obtain ⟨s, vs, rfl, hv⟩ := GPrimary_slash h e1
    exact ⟨s, _, rfl, hv⟩
  | _, _, .dot ts e' s h => by
    intro e
    obtain ⟨lx, vs, e1, _⟩ := GPrimary_first h
    rw [e1] at e
    simp at e
    obtain ⟨rfl, rfl⟩ := e
    obtain ⟨s, vs, rfl, hv⟩ := GPrimary_slash h e1
    exact ⟨s, _, rfl, hv⟩

theorem GExpr_slash : ∀ {n : Nat} {ts : List Token} {e : Expr}, GExpr valid n ts e → ∀ {us}, ts = .x (c! '/') :: us →
    ∃ s vs, us = .regexp s :: vs ∧ valid s = true
  | _, _, _, .unary _ _ _ h => by
    cases h with
    | primary _ _ h => exact fun e => GPrimary_slash h e
    | neg _ _ _ => intro h; simp [Lexeme.plain] at h
    | not _ _ _ => intro h; simp [Lexeme.plain] at h
  | _, _, _, .binary _ ts₁ a lx op k ts₂ b h1 h2 h3 h4 => by
    intro e
    obtain ⟨lx', vs, e1, _⟩ := GExpr_first h3
    rw [e1] at e
    simp at e
    obtain ⟨rfl, rfl⟩ := e
    obtain ⟨s, vs, rfl, hv⟩ := GExpr_slash h3 e1
    exact ⟨s, _, rfl, hv⟩

/-- A regular expression ends at the first slash without a backslash. -/
theorem closed_unique {t t' next next' : Bytes} (h : Closed t) (h' : Closed t') (e : t ++ c! '/' :: next = t' ++ c! '/' :: next') :
    unslash t = unslash t' := by
  have h1 := lexRegexp_of (reBody_iff.mpr ⟨h, rfl⟩) [] [] next
  have h2 := lexRegexp_of (reBody_iff.mpr ⟨h', rfl⟩) [] [] next'
  rw [e, h2] at h1
  simp at h1
  exact h1.1.symm

theorem script_re {rest : Bytes} {e : Expr} (h : parseScriptExpression env (c! '/' :: rest) = .ok e) :
    ∃ t next, Closed t ∧ rest = t ++ c! '/' :: next ∧ env.reValid (unslash t) = true := by
  obtain ⟨ts, h1, h2⟩ := parseScript_inv h
  obtain ⟨lx, us, rfl, _⟩ := GExpr_first h1
  have key : ∀ {x : Bytes}, Written env.parseFloat (.expr lx :: us) (c! '/' :: x) →
      ∃ t next, Closed t ∧ x = t ++ c! '/' :: next ∧ env.reValid (unslash t) = true := by
    intro x hx
    obtain ⟨rfl, h3⟩ := Written.expr_inv (g := []) (w := b! "/") (next := x) hx White.nil (.punct _ _ (by decide))
    obtain ⟨s, vs, rfl, hv⟩ := GExpr_slash h1 rfl
    cases h3 with
    | cons _ _ g w next hg hw h4 =>
      have hg : g = [] := hg
      subst hg
      cases hw with
      | regexp t _ _ hb =>
        obtain ⟨h5, rfl⟩ := reBody_iff.mp hb
        exact ⟨t, next, h5, by simp, hv⟩
  rcases h2 with h2 | ⟨_, q, u, hq, h3, h4⟩
  · exact key h2
  · obtain ⟨t, next, h5, h6, h7⟩ := key h4
    have h6 : rest ++ [q] = t ++ c! '/' :: next := h6
    rcases List.eq_nil_or_concat next with rfl | ⟨next, c, rfl⟩
    · obtain ⟨_, h8⟩ := List.append_inj' h6 rfl
      cases h8
      rcases hq with h | h <;> simp at h
    · have : rest ++ [q] = (t ++ c! '/' :: next) ++ [c] := by rw [h6]; simp
      obtain ⟨rfl, _⟩ := List.append_inj' this rfl
      exact ⟨t, next, h5, rfl, h7⟩

end JP
